import Verif.Model.Threads

/-! C42: thread handles. -/
namespace Verif.Props
open Verif.Threads

def anyStep : S → S → Prop := fun _ _ => True

/-- C42 as claimed: the memory of a handle is never used or freed after being freed. -/
def C42_statement : Prop := ∀ s, Reach anyStep s → s.bad = false

/-- detach and the end of the thread both free the handle. -/
theorem C42_double_free_witness : ∃ s, Reach anyStep s ∧ s.frees = 2 ∧ s.bad = true :=
  ⟨_, .step (.step (.step (.step (.step (.step (.step .start
    (.call .detach rfl) trivial) (.e rfl) trivial) (.e rfl) trivial) (.u rfl) trivial) (.u rfl) trivial)
    (.u rfl) trivial) (.e rfl) trivial, rfl, rfl⟩

/-- detach reads the handle after the thread freed it. -/
theorem C42_use_after_free_witness : ∃ s, Reach anyStep s ∧ s.frees = 1 ∧ s.bad = true :=
  ⟨_, .step (.step (.step (.step (.step (.step .start
    (.call .detach rfl) trivial) (.u rfl) trivial) (.e rfl) trivial) (.e rfl) trivial) (.e rfl) trivial)
    (.u rfl) trivial, rfl, rfl⟩

theorem C42_fails : ¬ C42_statement := by
  intro h
  obtain ⟨s, hs, -, hb⟩ := C42_double_free_witness
  rw [h s hs] at hb
  cases hb

/-- A user who does not detach. -/
def joins : S → S → Prop := fun _ s' => s'.u ≠ .dLoad

/-- detach does not overlap with the end of the thread: it starts before or after it, and the thread
makes no step during it. -/
def apart : S → S → Prop := fun s s' =>
  (s'.u = .dLoad → s.e = .run ∨ s.e = .done) ∧
    (s.u = .dLoad ∨ s.u = .dExited ∨ s.u = .dFree ∨ s.u = .dAlive → s'.e = s.e)

instance (s s' : S) : Decidable (apart s s') := by unfold apart; infer_instance

def JInv (s : S) : Prop :=
  s.bad = false ∧ s.det = false ∧ s.e ≠ .release ∧
    ((s.u = .idle ∧ s.frees = 0) ∨ (s.u = .jWait ∧ s.frees = 0) ∨ (s.u = .jFree ∧ s.e = .done ∧ s.frees = 0) ∨
      (s.u = .joined ∧ s.e = .done ∧ s.frees = 1))

theorem jinv {s : S} (h : Reach joins s) : JInv s := by
  induction h with
  | start => exact ⟨rfl, rfl, (fun hx => by cases hx), Or.inl ⟨rfl, rfl⟩⟩
  | step _ hs hok ih =>
    rename_i s s' _
    obtain ⟨e, u, alive, det, frees, bad⟩ := s
    obtain ⟨h1, h2, h3, h4⟩ := ih
    simp only at h1 h2 h3 h4
    subst h1 h2
    cases hs with
    | e hs =>
      cases e
      all_goals
        first
          | (exact absurd rfl h3)
          | cases hs
      all_goals
        rcases h4 with ⟨rfl, rfl⟩ | ⟨rfl, rfl⟩ | ⟨rfl, h, rfl⟩ | ⟨rfl, h, rfl⟩ <;>
          first
            | (cases h; done)
            | exact ⟨rfl, rfl, (fun hx => by cases hx), Or.inl ⟨rfl, rfl⟩⟩
            | exact ⟨rfl, rfl, (fun hx => by cases hx), Or.inr (Or.inl ⟨rfl, rfl⟩)⟩
    | u hs =>
      rcases h4 with ⟨rfl, rfl⟩ | ⟨rfl, rfl⟩ | ⟨rfl, rfl, rfl⟩ | ⟨rfl, rfl, rfl⟩
      · cases hs
      · simp only [stepU] at hs
        split at hs
        · rename_i he
          subst he
          cases hs
          exact ⟨rfl, rfl, (fun hx => by cases hx), Or.inr (Or.inr (Or.inl ⟨rfl, rfl, rfl⟩))⟩
        · cases hs
      · cases hs
        exact ⟨rfl, rfl, (fun hx => by cases hx), Or.inr (Or.inr (Or.inr ⟨rfl, rfl, rfl⟩))⟩
      · cases hs
    | call c hs =>
      rcases h4 with ⟨rfl, rfl⟩ | ⟨rfl, rfl⟩ | ⟨rfl, rfl, rfl⟩ | ⟨rfl, rfl, rfl⟩
      · cases c
        · cases hs
          exact ⟨rfl, rfl, h3, Or.inl ⟨rfl, rfl⟩⟩
        · cases hs
          exact ⟨rfl, rfl, h3, Or.inr (Or.inl ⟨rfl, rfl⟩)⟩
        · cases hs
          exact absurd rfl hok
      all_goals cases c <;> cases hs

/-- With join the handle is used only while it exists, and freed once, when the thread is done. -/
theorem C42_join_partial {s : S} (h : Reach joins s) :
    s.bad = false ∧ s.frees ≤ 1 ∧ (s.u = .joined → s.e = .done ∧ s.frees = 1) := by
  obtain ⟨h1, -, -, h4⟩ := jinv h
  refine ⟨h1, by omega, ?_⟩
  intro hu
  rcases h4 with ⟨h, -⟩ | ⟨h, -⟩ | ⟨h, -⟩ | ⟨-, h, h'⟩
  · rw [hu] at h; cases h
  · rw [hu] at h; cases h
  · rw [hu] at h; cases h
  · exact ⟨h, h'⟩

/-- The states when detach keeps apart from the end of the thread. -/
def apartStates : List (E × U × Bool × Bool × Nat) :=
  [(.run, .idle, true, false, 0), (.check, .idle, false, false, 0), (.done, .idle, false, false, 0),
   (.run, .jWait, true, false, 0), (.check, .jWait, false, false, 0), (.done, .jWait, false, false, 0),
   (.done, .jFree, false, false, 0), (.done, .joined, false, false, 1),
   (.run, .dLoad, true, true, 0), (.run, .dAlive, true, true, 0), (.run, .detached, true, true, 0),
   (.check, .detached, false, true, 0), (.release, .detached, false, true, 0), (.done, .detached, false, true, 1),
   (.done, .dLoad, false, true, 0), (.done, .dExited, false, true, 0), (.done, .dFree, false, true, 0)]

theorem apart_inv {s : S} (h : Reach apart s) : s.bad = false ∧ (s.e, s.u, s.alive, s.det, s.frees) ∈ apartStates := by
  induction h with
  | start => exact ⟨rfl, by decide⟩
  | step _ hs hok ih =>
    rename_i s s' _
    obtain ⟨e, u, alive, det, frees, bad⟩ := s
    obtain ⟨hb, hm⟩ := ih
    simp only at hb hm
    subst hb
    simp only [apartStates, List.mem_cons, Prod.mk.injEq, List.not_mem_nil, or_false] at hm
    obtain ⟨ok1, ok2⟩ := hok
    simp only at ok1 ok2
    rcases hm with ⟨rfl, rfl, rfl, rfl, rfl⟩ | ⟨rfl, rfl, rfl, rfl, rfl⟩ | ⟨rfl, rfl, rfl, rfl, rfl⟩ |
      ⟨rfl, rfl, rfl, rfl, rfl⟩ | ⟨rfl, rfl, rfl, rfl, rfl⟩ | ⟨rfl, rfl, rfl, rfl, rfl⟩ |
      ⟨rfl, rfl, rfl, rfl, rfl⟩ | ⟨rfl, rfl, rfl, rfl, rfl⟩ | ⟨rfl, rfl, rfl, rfl, rfl⟩ |
      ⟨rfl, rfl, rfl, rfl, rfl⟩ | ⟨rfl, rfl, rfl, rfl, rfl⟩ | ⟨rfl, rfl, rfl, rfl, rfl⟩ |
      ⟨rfl, rfl, rfl, rfl, rfl⟩ | ⟨rfl, rfl, rfl, rfl, rfl⟩ | ⟨rfl, rfl, rfl, rfl, rfl⟩ |
      ⟨rfl, rfl, rfl, rfl, rfl⟩ | ⟨rfl, rfl, rfl, rfl, rfl⟩
    all_goals
      cases hs with
      | e hs =>
        cases hs <;> first
          | exact ⟨rfl, by decide⟩
          | (have := ok2 (by decide); cases this)
      | u hs => cases hs <;> exact ⟨rfl, by decide⟩
      | call c hs =>
        cases c <;> cases hs <;> first
          | exact ⟨rfl, by decide⟩
          | (have := ok1 rfl; revert this; decide)

/-- So it is with detach, as long as it does not overlap with the end of the thread; and in the end the
handle is freed. -/
theorem C42_detach_partial {s : S} (h : Reach apart s) :
    s.bad = false ∧ s.frees ≤ 1 ∧ (s.u = .detached → s.e = .done → s.frees = 1) := by
  obtain ⟨h1, h2⟩ := apart_inv h
  have key : ∀ x ∈ apartStates, x.2.2.2.2 ≤ 1 ∧ (x.2.1 = .detached → x.1 = .done → x.2.2.2.2 = 1) := by decide
  exact ⟨h1, key _ h2⟩

example : ∃ s, Reach apart s ∧ s.u = .detached ∧ s.e = .done :=
  ⟨_, .step (.step (.step (.step (.step (.step .start (.call .detach rfl) (by decide)) (.u rfl) (by decide))
    (.u rfl) (by decide)) (.e rfl) (by decide)) (.e rfl) (by decide)) (.e rfl) (by decide), rfl, rfl⟩

end Verif.Props

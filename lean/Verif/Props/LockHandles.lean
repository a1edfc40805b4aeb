import Verif.Model.LockHandles

/-!
# C242: handles of locks
-/

namespace Verif.Props

open Verif.LockHandles

namespace Lh

/-- Nothing was reached, or the lock of the handle. -/
def Fine (x : Option Nat × Event) : Prop := x.2 = .nothing ∨ ∃ n, x.1 = some n ∧ x.2 = .lock n

instance (x : Option Nat × Event) : Decidable (Fine x) :=
  match x with
  | (_, .nothing) => isTrue (Or.inl rfl)
  | (_, .freed) => isFalse (by rintro (h | ⟨n, -, h⟩) <;> cases h)
  | (none, .lock _) => isFalse (by rintro (h | ⟨n, h, -⟩) <;> cases h)
  | (some m, .lock n) => if h : m = n then isTrue (Or.inr ⟨n, by rw [h], rfl⟩) else isFalse (by
      rintro (h' | ⟨k, h1, h2⟩)
      · cases h'
      · cases h1; cases h2; exact h rfl)

end Lh

open Lh

/-- C242: an operation on a handle reaches the lock that the handle was made for, or nothing. -/
def C242_statement : Prop := ∀ (l : List Op) (t : List (Option Nat × Event)), run start l = some t → ∀ x ∈ t, Fine x

/-- C242 fails: a mutex destroyed twice is freed twice. -/
theorem C242_handles_fails : ¬ C242_statement := by
  intro h
  have := h [.make .mutex 0 5, .destroy 0, .destroy 0] [(none, .nothing), (some 0, .lock 0), (some 0, .freed)] (by rfl) (some 0, .freed) (by simp)
  exact absurd this (by decide)

/-- C242: a mutex is locked after it was destroyed. -/
theorem C242_mutex_after_destroy_witness :
    run start [.make .mutex 0 5, .destroy 0, .use 0] = some [(none, .nothing), (some 0, .lock 0), (some 0, .freed)] := by rfl

/-- C242: clearing one variable does not help its copies. -/
theorem C242_spinlock_copy_witness :
    run start [.make .spin 0 5, .copy 0 1, .destroy 0, .use 1, .destroy 1] =
      some [(none, .nothing), (none, .nothing), (some 0, .lock 0), (some 0, .freed), (some 0, .freed)] := by rfl

/-- C242: an old handle reaches a new lock that `malloc` has put in the same place. -/
theorem C242_other_lock_witness :
    run start [.make .mutex 0 5, .destroy 0, .make .mutex 1 5, .use 0, .destroy 0, .use 1] =
      some [(none, .nothing), (some 0, .lock 0), (none, .nothing), (some 0, .lock 1), (some 0, .lock 1), (some 1, .freed)] := by rfl

namespace Lh

/-- A program looked at without memory: which lock each variable stands for, how many were made, and which were destroyed. -/
structure Book where
  var : Nat → Option Nat
  count : Nat
  gone : List Nat

/-- No operation on a handle whose lock has been destroyed, through this handle or another. -/
def Careful (b : Book) : List Op → Prop
  | [] => True
  | .make _ x _ :: r => Careful ⟨fun y => if y = x then some b.count else b.var y, b.count + 1, b.gone⟩ r
  | .copy x y :: r => Careful ⟨fun z => if z = y then b.var x else b.var z, b.count, b.gone⟩ r
  | .use x :: r => (∀ n, b.var x = some n → n ∉ b.gone) ∧ Careful b r
  | .destroy x :: r =>
    (∀ n, b.var x = some n → n ∉ b.gone) ∧
      Careful ⟨b.var, b.count, match b.var x with | some n => n :: b.gone | none => b.gone⟩ r

structure Agree (s : State) (b : Book) : Prop where
  made : ∀ x, (s.var x).made = b.var x
  count : s.count = b.count
  old : ∀ x n, b.var x = some n → n < b.count
  oldHeap : ∀ p n, s.heap p = some n → n < b.count
  none : ∀ x, b.var x = none → (s.var x).ptr = none
  here : ∀ x n, b.var x = some n → n ∉ b.gone → ∃ p, (s.var x).ptr = some p ∧ s.heap p = some n
  goneOld : ∀ n ∈ b.gone, n < b.count

theorem agree_start : Agree start ⟨fun _ => none, 0, []⟩ :=
  ⟨fun _ => rfl, rfl, fun _ _ h => (by cases h), fun _ _ h => (by cases h), fun _ _ => rfl, fun _ _ h => (by cases h), fun _ h => (by cases h)⟩

theorem careful_run : ∀ (l : List Op) (s : State) (b : Book) (t : List (Option Nat × Event)), Agree s b → Careful b l → run s l = some t →
    ∀ x ∈ t, Fine x
  | [], s, b, t, ha, hc, h => by
    simp [run] at h
    subst h
    simp
  | o :: r, s, b, t, ha, hc, h => by
    unfold run at h
    split at h
    · cases h
    · rename_i s' e hs
      rw [Option.map_eq_some_iff] at h
      obtain ⟨t', ht, rfl⟩ := h
      cases o with
      | make k x p =>
        simp only [step] at hs
        split at hs
        · rename_i hp
          simp only [Option.some.injEq, Prod.mk.injEq] at hs
          obtain ⟨rfl, rfl⟩ := hs
          have ih := careful_run r _ ⟨fun y => if y = x then some b.count else b.var y, b.count + 1, b.gone⟩ t' ?_ hc ht
          · intro z hz
            rcases List.mem_cons.1 hz with rfl | hz
            · exact Or.inl rfl
            · exact ih z hz
          · refine ⟨fun y => ?_, ?_, fun y n hy => ?_, fun q n hq => ?_, fun y hy => ?_, fun y n hy hn => ?_, fun n hn => ?_⟩
            · by_cases e : y = x
              · simp [State.setVar, State.setHeap, e, ha.count]
              · simpa [State.setVar, State.setHeap, e] using ha.made y
            · show s.count + 1 = b.count + 1
              rw [ha.count]
            · simp only at hy ⊢
              split at hy
              · cases hy; omega
              · have := ha.old y n hy; omega
            · simp only [State.setVar, State.setHeap] at hq ⊢
              split at hq
              · cases hq; have := ha.count; omega
              · have := ha.oldHeap q n hq; omega
            · simp only at hy
              split at hy
              · cases hy
              · rename_i e
                simpa [State.setVar, State.setHeap, e] using ha.none y hy
            · simp only at hy hn
              split at hy
              · rename_i e
                cases hy
                exact ⟨p, by simp [State.setVar, State.setHeap, e], by simp [State.setVar, State.setHeap, ha.count]⟩
              · rename_i e
                obtain ⟨q, h1, h2⟩ := ha.here y n hy hn
                have hqp : q ≠ p := fun e => by rw [e, hp] at h2; cases h2
                exact ⟨q, by simpa [State.setVar, State.setHeap, e] using h1, by simpa [State.setVar, State.setHeap, hqp] using h2⟩
            · have := ha.goneOld n hn
              simp only
              omega
        · cases hs
      | copy x y =>
        simp only [step, Option.some.injEq, Prod.mk.injEq] at hs
        obtain ⟨rfl, rfl⟩ := hs
        have ih := careful_run r _ ⟨fun z => if z = y then b.var x else b.var z, b.count, b.gone⟩ t' ?_ hc ht
        · intro z hz
          rcases List.mem_cons.1 hz with rfl | hz
          · exact Or.inl rfl
          · exact ih z hz
        · refine ⟨fun z => ?_, ha.count, fun z n hz => ?_, ha.oldHeap, fun z hz => ?_, fun z n hz hn => ?_, ha.goneOld⟩
          · by_cases e : z = y
            · simpa [State.setVar, e] using ha.made x
            · simpa [State.setVar, e] using ha.made z
          · simp only at hz
            split at hz
            · exact ha.old x n hz
            · exact ha.old z n hz
          · by_cases e : z = y
            · simp only [e, if_true] at hz
              simpa [State.setVar, e] using ha.none x hz
            · simp only [e, if_false] at hz
              simpa [State.setVar, e] using ha.none z hz
          · by_cases e : z = y
            · simp only [e, if_true] at hz
              simpa [State.setVar, e] using ha.here x n hz hn
            · simp only [e, if_false] at hz
              simpa [State.setVar, e] using ha.here z n hz hn
      | use x =>
        obtain ⟨hx, hc⟩ := hc
        have hst : s' = s ∧ (e = .nothing ∨ ∃ p, (s.var x).ptr = some p ∧ e = reach s p) := by
          simp only [step] at hs
          split at hs
          · simp only [Option.some.injEq, Prod.mk.injEq] at hs
            exact ⟨hs.1.symm, Or.inl hs.2.symm⟩
          · rename_i p hp
            simp only [Option.some.injEq, Prod.mk.injEq] at hs
            exact ⟨hs.1.symm, Or.inr ⟨p, hp, hs.2.symm⟩⟩
        obtain ⟨rfl, he⟩ := hst
        have ih := careful_run r _ b t' ha hc ht
        intro z hz
        rcases List.mem_cons.1 hz with rfl | hz
        · rcases he with he | ⟨p, hp, he⟩
          · exact Or.inl he
          · cases hb : b.var x with
            | none => rw [ha.none x hb] at hp; cases hp
            | some n =>
              obtain ⟨q, h1, h2⟩ := ha.here x n hb (hx n hb)
              rw [hp] at h1
              cases h1
              exact Or.inr ⟨n, by rw [← hb]; exact ha.made x, by rw [he]; simp [reach, h2]⟩
        · exact ih z hz
      | destroy x =>
        obtain ⟨hx, hc⟩ := hc
        cases hb : b.var x with
        | none =>
          have hp := ha.none x hb
          simp only [step, hp, Option.some.injEq, Prod.mk.injEq] at hs
          obtain ⟨rfl, rfl⟩ := hs
          rw [hb] at hc
          have ih := careful_run r _ b t' ha hc ht
          intro z hz
          rcases List.mem_cons.1 hz with rfl | hz
          · exact Or.inl rfl
          · exact ih z hz
        | some n =>
          obtain ⟨p, hp, hh⟩ := ha.here x n hb (hx n hb)
          rw [hb] at hc
          have hst : e = .lock n ∧ s'.heap = (s.setHeap p none).heap ∧ s'.count = s.count ∧ (∀ y, (s'.var y).made = (s.var y).made) ∧
              (∀ y, (s.var y).ptr = none → (s'.var y).ptr = none) ∧ ∀ y, y ≠ x → (s'.var y).ptr = (s.var y).ptr := by
            simp only [step, hp] at hs
            split at hs
            · simp only [Option.some.injEq, Prod.mk.injEq] at hs
              obtain ⟨rfl, rfl⟩ := hs
              refine ⟨by simp [reach, hh], rfl, rfl, fun y => ?_, fun y hy => ?_, fun y hy => by simp [State.setVar, State.setHeap, hy]⟩
              · by_cases e : y = x
                · simp [State.setVar, e]
                · simp [State.setVar, State.setHeap, e]
              · by_cases e : y = x
                · simp [State.setVar, e]
                · simpa [State.setVar, State.setHeap, e] using hy
            · simp only [Option.some.injEq, Prod.mk.injEq] at hs
              obtain ⟨rfl, rfl⟩ := hs
              exact ⟨by simp [reach, hh], rfl, rfl, fun y => rfl, fun y hy => hy, fun y hy => rfl⟩
          obtain ⟨rfl, h1, h2, h3, h4, h5⟩ := hst
          have hag : Agree s' ⟨b.var, b.count, n :: b.gone⟩ := by
            refine ⟨fun y => by rw [h3]; exact ha.made y, by rw [h2]; exact ha.count, ha.old, fun q m hq => ?_, fun y hy => h4 y (ha.none y hy), fun y m hy hm => ?_, fun m hm => ?_⟩
            · rw [h1] at hq
              simp only [State.setHeap] at hq
              split at hq
              · cases hq
              · exact ha.oldHeap q m hq
            · simp at hm
              have hyx : y ≠ x := fun e => by rw [e, hb] at hy; cases hy; exact hm.1 rfl
              obtain ⟨q, g1, g2⟩ := ha.here y m hy hm.2
              refine ⟨q, by rw [h5 y hyx]; exact g1, ?_⟩
              rw [h1]
              have hqp : q ≠ p := fun e => by rw [e, hh] at g2; cases g2; exact hm.1 rfl
              simpa [State.setHeap, hqp] using g2
            · rcases List.mem_cons.1 hm with rfl | hm
              · exact ha.old x m hb
              · exact ha.goneOld m hm
          have ih := careful_run r _ _ t' hag hc ht
          intro z hz
          rcases List.mem_cons.1 hz with rfl | hz
          · exact Or.inr ⟨n, by rw [← hb]; exact ha.made x, rfl⟩
          · exact ih z hz

/-- Only spin locks, each in one variable. -/
def Single : Op → Bool
  | .make k _ _ => k == .spin
  | .copy _ _ => false
  | _ => true

structure Alone (s : State) : Prop where
  spin : ∀ x, (s.var x).kind = .spin
  here : ∀ x p, (s.var x).ptr = some p → ∃ n, (s.var x).made = some n ∧ s.heap p = some n
  apart : ∀ x y p, (s.var x).ptr = some p → (s.var y).ptr = some p → x = y

theorem single_run : ∀ (l : List Op) (s : State) (t : List (Option Nat × Event)), Alone s → (∀ o ∈ l, Single o = true) → run s l = some t →
    ∀ x ∈ t, Fine x
  | [], s, t, ha, hc, h => by
    simp [run] at h
    subst h
    simp
  | o :: r, s, t, ha, hc, h => by
    unfold run at h
    split at h
    · cases h
    · rename_i s' e hs
      rw [Option.map_eq_some_iff] at h
      obtain ⟨t', ht, rfl⟩ := h
      have hr : ∀ o ∈ r, Single o = true := fun o ho => hc o (by simp [ho])
      have h0 := hc o (by simp)
      cases o with
      | make k x p =>
        simp only [step] at hs
        split at hs
        · rename_i hp
          simp only [Option.some.injEq, Prod.mk.injEq] at hs
          obtain ⟨rfl, rfl⟩ := hs
          have hk : k = .spin := by simpa [Single] using h0
          have hne : ∀ y q, (s.var y).ptr = some q → q ≠ p := fun y q h e => by
            obtain ⟨n, -, h2⟩ := ha.here y q h
            rw [e, hp] at h2
            cases h2
          have ih := single_run r _ t' ?_ hr ht
          · intro z hz
            rcases List.mem_cons.1 hz with rfl | hz
            · exact Or.inl rfl
            · exact ih z hz
          · refine ⟨fun y => ?_, fun y q hy => ?_, fun y z q hy hz => ?_⟩
            · by_cases e : y = x
              · simp [State.setVar, State.setHeap, e, hk]
              · simpa [State.setVar, State.setHeap, e] using ha.spin y
            · by_cases e : y = x
              · simp [State.setVar, State.setHeap, e] at hy
                subst hy
                exact ⟨s.count, by simp [State.setVar, State.setHeap, e], by simp [State.setHeap]⟩
              · have hy' : (s.var y).ptr = some q := by simpa [State.setVar, State.setHeap, e] using hy
                obtain ⟨n, h1, h2⟩ := ha.here y q hy'
                exact ⟨n, by simpa [State.setVar, State.setHeap, e] using h1, by simpa [State.setVar, State.setHeap, hne y q hy'] using h2⟩
            · by_cases e : y = x <;> by_cases e' : z = x
              · rw [e, e']
              · simp [State.setVar, State.setHeap, e] at hy
                have hz' : (s.var z).ptr = some q := by simpa [State.setVar, State.setHeap, e'] using hz
                exact absurd hy.symm (hne z q hz')
              · simp [State.setVar, State.setHeap, e'] at hz
                have hy' : (s.var y).ptr = some q := by simpa [State.setVar, State.setHeap, e] using hy
                exact absurd hz.symm (hne y q hy')
              · have hz' : (s.var z).ptr = some q := by simpa [State.setVar, State.setHeap, e'] using hz
                have hy' : (s.var y).ptr = some q := by simpa [State.setVar, State.setHeap, e] using hy
                exact ha.apart y z q hy' hz'
        · cases hs
      | copy x y => cases h0
      | use x =>
        simp only [step] at hs
        split at hs
        · simp only [Option.some.injEq, Prod.mk.injEq] at hs
          obtain ⟨rfl, rfl⟩ := hs
          have ih := single_run r _ t' ha hr ht
          intro z hz
          rcases List.mem_cons.1 hz with rfl | hz
          · exact Or.inl rfl
          · exact ih z hz
        · rename_i p hp
          simp only [Option.some.injEq, Prod.mk.injEq] at hs
          obtain ⟨rfl, rfl⟩ := hs
          have ih := single_run r _ t' ha hr ht
          intro z hz
          rcases List.mem_cons.1 hz with rfl | hz
          · obtain ⟨n, h1, h2⟩ := ha.here x p hp
            exact Or.inr ⟨n, h1, by simp [reach, h2]⟩
          · exact ih z hz
      | destroy x =>
        simp only [step, ha.spin x] at hs
        split at hs
        · simp only [Option.some.injEq, Prod.mk.injEq] at hs
          obtain ⟨rfl, rfl⟩ := hs
          have ih := single_run r _ t' ha hr ht
          intro z hz
          rcases List.mem_cons.1 hz with rfl | hz
          · exact Or.inl rfl
          · exact ih z hz
        · rename_i p hp
          simp only [Option.some.injEq, Prod.mk.injEq] at hs
          obtain ⟨rfl, rfl⟩ := hs
          have ih := single_run r _ t' ?_ hr ht
          · intro z hz
            rcases List.mem_cons.1 hz with rfl | hz
            · obtain ⟨n, h1, h2⟩ := ha.here x p hp
              exact Or.inr ⟨n, h1, by simp [reach, h2]⟩
            · exact ih z hz
          · have hv : ∀ y q, (((s.setHeap p none).setVar x { made := (s.var x).made }).var y).ptr = some q → y ≠ x ∧ (s.var y).ptr = some q := by
              intro y q hy
              by_cases e : y = x
              · simp [State.setVar, e] at hy
              · exact ⟨e, by simpa [State.setVar, State.setHeap, e] using hy⟩
            refine ⟨fun y => ?_, fun y q hy => ?_, fun y z q hy hz => ha.apart y z q (hv y q hy).2 (hv z q hz).2⟩
            · by_cases e : y = x
              · simpa [State.setVar, e] using ha.spin x
              · simpa [State.setVar, State.setHeap, e] using ha.spin y
            · obtain ⟨e, hy'⟩ := hv y q hy
              obtain ⟨n, h1, h2⟩ := ha.here y q hy'
              have hqp : q ≠ p := fun h => e (ha.apart y x p (h ▸ hy') hp)
              exact ⟨n, by simpa [State.setVar, State.setHeap, e] using h1, by simpa [State.setVar, State.setHeap, hqp] using h2⟩

end Lh

/-- C242: it holds for programs that use no handle, old or copied, of a lock that has been destroyed. Missing: the others. -/
theorem C242_careful_partial (l : List Op) (hc : Careful ⟨fun _ => none, 0, []⟩ l) (t : List (Option Nat × Event)) (h : run start l = some t) :
    ∀ x ∈ t, Fine x :=
  careful_run l _ _ t agree_start hc h

/-- C242: it holds for spin locks that are not copied, however they are used: after `destroy` the variable is empty. Missing: copies and
mutexes. -/
theorem C242_single_spinlocks_partial (l : List Op) (hc : ∀ o ∈ l, Single o = true) (t : List (Option Nat × Event)) (h : run start l = some t) :
    ∀ x ∈ t, Fine x :=
  single_run l _ t ⟨fun _ => rfl, fun _ _ h => (by cases h), fun _ _ _ h => (by cases h)⟩ hc h

example : run start [.make .spin 0 5, .use 0, .destroy 0, .use 0, .destroy 0, .make .spin 0 5, .use 0] =
    some [(none, .nothing), (some 0, .lock 0), (some 0, .lock 0), (some 0, .nothing), (some 0, .nothing), (none, .nothing), (some 1, .lock 1)] := by rfl

/-- The condition of the first is met by a mutex that is destroyed at the end. -/
example : Careful ⟨fun _ => none, 0, []⟩ [.make .mutex 0 5, .copy 0 1, .use 1, .use 0, .destroy 1] := by simp [Careful]

end Verif.Props

import Verif.Props.Unpack
/-
C352, C353 and C356: several processes extracting the same file.
-/
namespace Verif.Props
open Verif.Unpack
namespace Xr

/-- No names are mixed up by any number of processes. -/
theorem sane_step {data : Data} {s s' : FS} {pc pc' : Pc} (hs : Sane s) (st : Step data s pc s' pc') : Sane s' := by
  cases st with
  | present => exact hs
  | absent => exact hs
  | opened =>
    unfold openTmp
    cases ht : s.tmp with
    | some i => exact ⟨fun j hj => by simpa [ht] using hs.apart j hj, hs.pathOld, fun j hj => hs.tmpOld j (by simpa [ht] using hj)⟩
    | none =>
      refine ⟨fun j hj => ?_, fun j hj => ?_, fun j hj => ?_⟩
      · have := hs.pathOld j hj
        intro e
        have : s.fresh = j := Option.some.inj e
        omega
      · have := hs.pathOld j hj
        show j < s.fresh + 1
        omega
      · have : s.fresh = j := Option.some.inj hj
        show j < s.fresh + 1
        omega
  | write n hn => exact ⟨hs.apart, hs.pathOld, hs.tmpOld⟩
  | failed => exact hs
  | closed => exact hs
  | renamed h => exact ⟨fun _ _ => nofun, fun j hj => hs.tmpOld j (by rw [h]; exact hj), nofun⟩
  | gone => exact hs

theorem sane_many {data : Data} {s s' : FS} {pcs : Nat → Pc} (hs : Sane s) (h : Many data s s' pcs) : Sane s' := by
  induction h with
  | start => exact hs
  | step p _ st ih => exact sane_step ih st

/-- The first `off` bytes are those embedded, and there are not too many. -/
def Good (data d : Data) (off : Nat) : Prop := off ≤ data.length ∧ d.length ≤ data.length ∧ ∀ k, k < off → d[k]? = data[k]?

theorem good_all {data d : Data} (h : Good data d data.length) : d = data := by
  apply List.ext_getElem?
  intro k
  by_cases hk : k < data.length
  · exact h.2.2 k hk
  · rw [List.getElem?_eq_none (by have := h.2.1; omega), List.getElem?_eq_none (by omega)]

theorem good_nil (data : Data) : Good data [] 0 := ⟨Nat.zero_le _, Nat.zero_le _, fun k hk => absurd hk (Nat.not_lt_zero k)⟩

theorem writeAt_length {data d : Data} {o n : Nat} (ho : o + n ≤ data.length) (hd : d.length ≤ data.length) :
    (writeAt d o ((data.drop o).take n)).length ≤ data.length := by
  simp [writeAt]
  omega

theorem writeAt_in {data d : Data} {o n k : Nat} (ho : o + n ≤ data.length) (h1 : o ≤ k) (h2 : k < o + n) :
    (writeAt d o ((data.drop o).take n))[k]? = data[k]? := by
  have hl : ((d ++ List.replicate (o - d.length) 0).take o).length = o := by simp; omega
  have hn : ((data.drop o).take n).length = n := by simp; omega
  unfold writeAt
  rw [List.append_assoc, List.getElem?_append_right (by omega), hl, List.getElem?_append_left (by omega), List.getElem?_take, if_pos (by omega),
    List.getElem?_drop]
  congr 1
  omega

theorem writeAt_out {data d : Data} {o n k : Nat} (ho : o + n ≤ data.length) (hk : k < d.length) (h : k < o ∨ o + n ≤ k) :
    (writeAt d o ((data.drop o).take n))[k]? = d[k]? := by
  have hl : ((d ++ List.replicate (o - d.length) 0).take o).length = o := by simp; omega
  have hn : ((data.drop o).take n).length = n := by simp; omega
  unfold writeAt
  rcases h with h | h
  · rw [List.append_assoc, List.getElem?_append_left (by omega), List.getElem?_take, if_pos h, List.getElem?_append_left hk]
  · rw [List.getElem?_append_right (by simp only [List.length_append]; omega), List.length_append, hl, hn, List.getElem?_drop]
    congr 1
    omega

theorem good_long {data d : Data} {off k : Nat} (h : Good data d off) (hk : k < off) : k < d.length := by
  have h1 := h.2.2 k hk
  rw [List.getElem?_eq_getElem (l := data) (by have := h.1; omega)] at h1
  exact (List.getElem?_eq_some_iff.1 h1).1

theorem good_other {data d : Data} {off o n : Nat} (h : Good data d off) (ho : o + n ≤ data.length) :
    Good data (writeAt d o ((data.drop o).take n)) off := by
  refine ⟨h.1, writeAt_length ho h.2.1, fun k hk => ?_⟩
  by_cases hi : o ≤ k ∧ k < o + n
  · exact writeAt_in ho hi.1 hi.2
  · rw [writeAt_out ho (good_long h hk) (by omega)]
    exact h.2.2 k hk

theorem good_own {data d : Data} {o n : Nat} (h : Good data d o) (ho : o + n ≤ data.length) :
    Good data (writeAt d o ((data.drop o).take n)) (o + n) := by
  refine ⟨ho, writeAt_length ho h.2.1, fun k hk => ?_⟩
  by_cases hi : o ≤ k
  · exact writeAt_in ho hi hk
  · rw [writeAt_out ho (good_long h (by omega)) (by omega)]
    exact h.2.2 k (by omega)

/-- Any number of processes, none of whose writes fails -/
inductive Smooth (data : Data) (s : FS) : FS → (Nat → Pc) → Prop
  | start : Smooth data s s fun _ => .start
  | step {s' pcs s'' pc'} (p : Nat) : Smooth data s s' pcs → Step data s' (pcs p) s'' pc' → (∀ i off, pcs p = .writing i off → pc' ≠ .done false) →
      Smooth data s s'' fun q => if q = p then pc' else pcs q

theorem Smooth.many {data : Data} {s s' : FS} {pcs : Nat → Pc} (h : Smooth data s s' pcs) : Many data s s' pcs := by
  induction h with
  | start => exact .start
  | step p _ st _ ih => exact ih.step p st

/-- The file has the bytes, or some process is about to write those that are missing. -/
def Heals (data : Data) (s : FS) (pcs : Nat → Pc) (i : Nat) : Prop :=
  Good data (s.inode i) data.length ∨ ∃ p off, pcs p = .writing i off ∧ Good data (s.inode i) off

structure Hold (data : Data) (s s' : FS) (pcs : Nat → Pc) : Prop where
  tmp : (∀ i, s'.tmp = some i → Heals data s' pcs i) ∨ ∀ p, pcs p ≠ .renaming ∧ ∀ i off, pcs p ≠ .writing i off
  path : (s'.path = s.path ∧ ∀ i, s.path = some i → s'.inode i = s.inode i ∧ ∀ p off, pcs p ≠ .writing i off) ∨
    ∃ i, s'.path = some i ∧ Heals data s' pcs i
  done : ∀ p, pcs p = .done true → (∃ i, s'.path = some i ∧ Heals data s' pcs i) ∨ ∃ d, content s = some d ∧ d.length = data.length

/-- A process that is not writing before and after changes nothing for the others. -/
theorem heals_quiet {data : Data} {s : FS} {pcs : Nat → Pc} {p : Nat} {pc' : Pc} {i : Nat} (hw : ∀ off, pcs p ≠ .writing i off)
    (h : Heals data s pcs i) : Heals data s (fun q => if q = p then pc' else pcs q) i := by
  rcases h with h | ⟨q, off, h1, h2⟩
  · exact Or.inl h
  · refine Or.inr ⟨q, off, ?_, h2⟩
    have : q ≠ p := fun e => hw off (e ▸ h1)
    simp [this, h1]

theorem heals_inode {data : Data} {s s' : FS} {pcs : Nat → Pc} {i : Nat} (hi : s'.inode i = s.inode i) (h : Heals data s pcs i) :
    Heals data s' pcs i := by
  unfold Heals
  rw [hi]
  exact h

/-- A step that neither writes nor opens nor renames -/
theorem hold_quiet {data : Data} {s s' : FS} {pcs : Nat → Pc} {p : Nat} {pc' : Pc} (hw : ∀ i off, pcs p ≠ .writing i off)
    (hn : ∀ i off, pc' ≠ .writing i off) (hr : pc' ≠ .renaming) (h : Hold data s s' pcs)
    (hd : pc' = .done true → (∃ i, s'.path = some i ∧ Heals data s' pcs i) ∨ ∃ d, content s = some d ∧ d.length = data.length) :
    Hold data s s' fun q => if q = p then pc' else pcs q := by
  have up : (∃ i, s'.path = some i ∧ Heals data s' pcs i) → ∃ i, s'.path = some i ∧ Heals data s' (fun q => if q = p then pc' else pcs q) i :=
    fun ⟨i, h1, h2⟩ => ⟨i, h1, heals_quiet (hw i) h2⟩
  refine ⟨?_, ?_, ?_⟩
  · rcases h.tmp with ht | ht
    · exact Or.inl fun i hi => heals_quiet (hw i) (ht i hi)
    · refine Or.inr fun q => ?_
      by_cases hq : q = p
      · simpa [hq] using ⟨hr, hn⟩
      · simpa [hq] using ht q
  · rcases h.path with ⟨h1, h2⟩ | h1
    · refine Or.inl ⟨h1, fun i hi => ⟨(h2 i hi).1, fun q off => ?_⟩⟩
      by_cases hq : q = p
      · simpa [hq] using hn i off
      · simpa [hq] using (h2 i hi).2 q off
    · exact Or.inr (up h1)
  · intro q hq
    by_cases e : q = p
    · exact (hd (by simpa [e] using hq)).imp up id
    · exact (h.done q (by simpa [e] using hq)).imp up id

theorem hold {data : Data} {s : FS} (hs : Sane s) {s' : FS} {pcs : Nat → Pc} (h : Smooth data s s' pcs) : Hold data s s' pcs := by
  induction h with
  | start => exact ⟨Or.inr fun _ => ⟨nofun, nofun⟩, Or.inl ⟨rfl, fun _ _ => ⟨rfl, nofun⟩⟩, nofun⟩
  | @step s' pcs s'' pc' p hm st hf ih =>
    have hs' : Sane s' := sane_many hs hm.many
    generalize hpc : pcs p = pc at st
    cases st with
    | @present i h1 h2 =>
      refine hold_quiet (by simp [hpc]) nofun nofun ih fun _ => ?_
      rcases ih.path with ⟨h3, h4⟩ | h3
      · rw [h3] at h1
        exact Or.inr ⟨_, by rw [content, h1]; rfl, by rw [← (h4 i h1).1]; exact h2⟩
      · exact Or.inl h3
    | absent _ => exact hold_quiet (by simp [hpc]) nofun nofun ih nofun
    | gone h => exact hold_quiet (by simp [hpc]) nofun nofun ih nofun
    | failed => exact absurd rfl (hf _ _ hpc)
    | @closed i =>
      have hh : ∀ j, Heals data s' pcs j → Heals data s' (fun q => if q = p then .renaming else pcs q) j := by
        rintro j (g | ⟨q, off, h1, h2⟩)
        · exact Or.inl g
        · by_cases e : q = p
          · rw [e, hpc] at h1
            cases h1
            exact Or.inl h2
          · exact Or.inr ⟨q, off, by simp [e, h1], h2⟩
      have up : (∃ i, s'.path = some i ∧ Heals data s' pcs i) → ∃ i, s'.path = some i ∧ Heals data s' (fun q => if q = p then .renaming else pcs q) i :=
        fun ⟨i, h1, h2⟩ => ⟨i, h1, hh i h2⟩
      refine ⟨?_, ?_, ?_⟩
      · rcases ih.tmp with ht | ht
        · exact Or.inl fun j hj => hh j (ht j hj)
        · exact absurd hpc ((ht p).2 _ _)
      · rcases ih.path with ⟨h1, h2⟩ | h1
        · refine Or.inl ⟨h1, fun i hi => ⟨(h2 i hi).1, fun q off => ?_⟩⟩
          by_cases hq : q = p
          · simp [hq]
          · simpa [hq] using (h2 i hi).2 q off
        · exact Or.inr (up h1)
      · intro q hq
        by_cases e : q = p
        · simp [e] at hq
        · exact (ih.done q (by simpa [e] using hq)).imp up id
    | @renamed i h =>
      have hi : Heals data s' pcs i := by
        rcases ih.tmp with ht | ht
        · exact ht i h
        · exact absurd hpc (ht p).1
      have hi' : Heals data { s' with path := some i, tmp := none } (fun q => if q = p then .done true else pcs q) i :=
        heals_inode (s := s') rfl (heals_quiet (by simp [hpc]) hi)
      exact ⟨Or.inl nofun, Or.inr ⟨i, rfl, hi'⟩, fun _ _ => Or.inl ⟨i, rfl, hi'⟩⟩
    | opened =>
      have key : ∃ i, (openTmp s').2 = i ∧ (openTmp s').1.tmp = some i ∧ (openTmp s').1.inode i = [] ∧ (openTmp s').1.path = s'.path ∧
          (∀ j, j ≠ i → (openTmp s').1.inode j = s'.inode j) ∧ s'.path ≠ some i := by
        unfold openTmp
        cases ht : s'.tmp with
        | some i => exact ⟨i, rfl, rfl, by simp [upd], rfl, fun j hj => by simp [upd, hj], fun e => hs'.apart i e ht⟩
        | none => exact ⟨s'.fresh, rfl, rfl, by simp [upd], rfl, fun j hj => by simp [upd, hj], fun e => Nat.lt_irrefl _ (hs'.pathOld _ e)⟩
      obtain ⟨i, k1, k2, k3, k4, k5, k6⟩ := key
      rw [k1]
      have hh : ∀ j, j ≠ i → Heals data s' pcs j → Heals data (openTmp s').1 (fun q => if q = p then .writing i 0 else pcs q) j :=
        fun j hj g => heals_inode (k5 j hj) (heals_quiet (by simp [hpc]) g)
      have up : (∃ i, s'.path = some i ∧ Heals data s' pcs i) →
          ∃ j, (openTmp s').1.path = some j ∧ Heals data (openTmp s').1 (fun q => if q = p then .writing i 0 else pcs q) j :=
        fun ⟨j, h1, h2⟩ => ⟨j, k4.trans h1, hh j (fun e => k6 (e ▸ h1)) h2⟩
      refine ⟨Or.inl fun j hj => ?_, ?_, ?_⟩
      · rw [k2] at hj
        cases hj
        exact Or.inr ⟨p, 0, by simp, by rw [k3]; exact good_nil data⟩
      · rcases ih.path with ⟨h1, h2⟩ | h1
        · refine Or.inl ⟨k4.trans h1, fun j hj => ?_⟩
          have hji : j ≠ i := fun e => k6 (by rw [h1, hj, e])
          refine ⟨(k5 j hji).trans (h2 j hj).1, fun q off => ?_⟩
          by_cases hq : q = p
          · simp only [hq, if_true]
            intro e
            injection e with e1
            exact hji e1.symm
          · simpa [hq] using (h2 j hj).2 q off
        · exact Or.inr (up h1)
      · intro q hq
        by_cases e : q = p
        · simp [e] at hq
        · exact (ih.done q (by simpa [e] using hq)).imp up id
    | @write i o n hn =>
      have hh : ∀ j, Heals data s' pcs j → Heals data { s' with inode := upd s'.inode i (writeAt (s'.inode i) o ((data.drop o).take n)) }
          (fun q => if q = p then .writing i (o + n) else pcs q) j := by
        intro j g
        by_cases hj : j = i
        · subst hj
          rcases g with g | ⟨q, off, h1, h2⟩
          · exact Or.inl (by simpa [upd] using good_other g hn)
          · by_cases e : q = p
            · rw [e, hpc] at h1
              cases h1
              exact Or.inr ⟨p, o + n, by simp, by simpa [upd] using good_own h2 hn⟩
            · exact Or.inr ⟨q, off, by simp [e, h1], by simpa [upd] using good_other h2 hn⟩
        · refine heals_inode (s := s') (by simp [upd, hj]) (heals_quiet (fun off e => ?_) g)
          rw [hpc] at e
          injection e with e1
          exact hj e1.symm
      refine ⟨?_, ?_, ?_⟩
      · rcases ih.tmp with ht | ht
        · exact Or.inl fun j hj => hh j (ht j hj)
        · exact absurd hpc ((ht p).2 _ _)
      · rcases ih.path with ⟨h1, h2⟩ | ⟨j, h1, h2⟩
        · refine Or.inl ⟨h1, fun j hj => ?_⟩
          have hji : j ≠ i := fun e => (h2 j hj).2 p o (e ▸ hpc)
          refine ⟨by simpa [upd, hji] using (h2 j hj).1, fun q off => ?_⟩
          by_cases hq : q = p
          · simp only [hq, if_true]
            intro e
            injection e with e1
            exact hji e1.symm
          · simpa [hq] using (h2 j hj).2 q off
        · exact Or.inr ⟨j, h1, hh j h2⟩
      · intro q hq
        by_cases e : q = p
        · simp [e] at hq
        · exact (ih.done q (by simpa [e] using hq)).imp (fun ⟨j, h1, h2⟩ => ⟨j, h1, hh j h2⟩) id

end Xr
open Xr

/-- With any number of processes the two names stay two files. -/
theorem C352_names (data : Data) (s s' : FS) (pcs : Nat → Pc) (hs : Sane s) (h : Many data s s' pcs) : Sane s' := sane_many hs h

/-- After any stopped processes, one that runs alone and succeeds leaves the embedded bytes, unless a file of that size is there. -/
theorem C352_again (data : Data) (s s' s'' : FS) (pcs : Nat → Pc) (hs : Sane s) (h : Many data s s' pcs) (h' : Alone data s' s'' (.done true)) :
    content s'' = some data ∨ (s'' = s' ∧ ∃ d, content s' = some d ∧ d.length = data.length) :=
  C351_partial data s' s'' (sane_many hs h) h'

/-- **C356**: when several processes extract at once and no write fails, then as soon as none is writing, a process that has succeeded finds the embedded
bytes, or the bytes of a file of the same size that was there before. -/
theorem C356_heals (data : Data) (s s' : FS) (pcs : Nat → Pc) (p : Nat) (hs : Sane s) (h : Smooth data s s' pcs)
    (hw : ∀ q i off, pcs q ≠ .writing i off) (hp : pcs p = .done true) :
    content s' = some data ∨ (content s' = content s ∧ ∃ d, content s = some d ∧ d.length = data.length) := by
  have key : (∃ i, s'.path = some i ∧ Heals data s' pcs i) → content s' = some data := by
    rintro ⟨i, h1, g | ⟨q, off, h2, _⟩⟩
    · rw [content, h1, Option.map_some, good_all g]
    · exact absurd h2 (hw q i off)
  have H := hold hs h
  rcases H.done p hp with h1 | h1
  · exact Or.inl (key h1)
  · rcases H.path with ⟨h2, h3⟩ | h2
    · exact Or.inr ⟨same_content h2 fun j hj => (h3 j hj).1, h1⟩
    · exact Or.inl (key h2)

/-- Whether or not any has succeeded, the file is as before or has all embedded bytes. -/
theorem C356_all (data : Data) (s s' : FS) (pcs : Nat → Pc) (hs : Sane s) (h : Smooth data s s' pcs) (hw : ∀ q i off, pcs q ≠ .writing i off) :
    content s' = content s ∨ content s' = some data := by
  rcases (hold hs h).path with ⟨h2, h3⟩ | ⟨i, h1, g | ⟨q, off, h2, _⟩⟩
  · exact Or.inl (same_content h2 fun j hj => (h3 j hj).1)
  · exact Or.inr (by rw [content, h1, Option.map_some, good_all g])
  · exact absurd h2 (hw q i off)

/-- The race of `C351_witness` goes on: the second process writes into the renamed file and fails, having nothing to rename, though no write has failed and
the bytes are there. -/
theorem C353_error : ∃ s pcs, Smooth two empty s pcs ∧ (∀ q i off, pcs q ≠ .writing i off) ∧ pcs 0 = .done true ∧ pcs 1 = .done false ∧
    content s = some two := by
  have h0 : Smooth two empty empty fun _ => .start := .start
  have h1 := h0.step 0 (.absent nofun) nofun
  have h2 := h1.step 0 .opened nofun
  have h3 := h2.step 0 (.write 2 (by decide)) nofun
  have h4 := h3.step 0 (.closed (data := two)) nofun
  have h5 := h4.step 1 (.absent nofun) nofun
  have h6 := h5.step 1 .opened nofun
  have h7 := h6.step 0 (.renamed (i := 0) rfl) nofun
  have h8 := h7.step 1 (.write 2 (by decide)) nofun
  have h9 := h8.step 1 (.closed (data := two)) nofun
  have h10 := h9.step 1 (.gone rfl) nofun
  refine ⟨_, _, h10, fun q i off => ?_, rfl, rfl, rfl⟩
  by_cases a : q = 1
  · simp [a]
  · by_cases b : q = 0
    · simp [b]
    · simp [a, b]

/-- A process whose file was renamed by another does not succeed. -/
theorem C353_gone (data : Data) (s s' : FS) (pc : Pc) (ht : s.tmp = none) (h : Step data s .renaming s' pc) : s' = s ∧ pc = .done false := by
  cases h with
  | renamed h => rw [ht] at h; cases h
  | gone => exact ⟨rfl, rfl⟩

example : ∃ s pcs, Smooth two empty s pcs ∧ (∀ q i off, pcs q ≠ .writing i off) ∧ ∃ p, pcs p = .done true :=
  let ⟨s, pcs, h, hw, h0, _⟩ := C353_error
  ⟨s, pcs, h, hw, 0, h0⟩

end Verif.Props

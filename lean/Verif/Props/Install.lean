import Verif.Model.Install

/-! C38, C109: installing an update. -/
namespace Verif.Props
open Verif Verif.Str Verif.Path Verif.Install

/-! ### C38 -/

/-- C38 as claimed: at the end a complete binary is installed, the new one if success is reported, as
long as the backup can be put back. -/
def C38_statement : Prop :=
  ∀ (f : Faults) (old new : Str) (b : Option File), f.restore = true →
    (final f new ⟨some ⟨old, true⟩, b⟩).exec =
      some ⟨if (install f new ⟨some ⟨old, true⟩, b⟩).2 then new else old, true⟩

def allFine : Faults := ⟨true, true, true, none, none, true, true, true, true⟩

/-- A write error reported when the file is closed goes unnoticed: a part of the binary is installed
and the backup is removed. -/
theorem C38_witness :
    final { allFine with closeLoses := some 1 } (lit "new") ⟨some ⟨lit "old", true⟩, none⟩ =
      ⟨some ⟨lit "n", true⟩, none⟩ ∧
    (install { allFine with closeLoses := some 1 } (lit "new") ⟨some ⟨lit "old", true⟩, none⟩).2 = true := by
  decide +kernel

theorem C38_fails : ¬ C38_statement := by
  intro h
  have := h { allFine with closeLoses := some 1 } (lit "old") (lit "new") none rfl
  rw [C38_witness.1, C38_witness.2] at this
  revert this
  decide

/-- If the process is killed after the rename, nothing is at the executable path. -/
theorem C38_crash_witness :
    ⟨none, some ⟨lit "old", true⟩⟩ ∈ (install allFine (lit "new") ⟨some ⟨lit "old", true⟩, none⟩).1 := by
  decide +kernel

/-- Whatever fails, except a delayed write error at close, the old or the new binary is complete at the
end. -/
theorem C38_partial (f : Faults) (old new : Str) (b : Option File) (hr : f.restore = true)
    (hc : f.closeLoses = none) :
    (final f new ⟨some ⟨old, true⟩, b⟩).exec =
      some ⟨if (install f new ⟨some ⟨old, true⟩, b⟩).2 then new else old, true⟩ := by
  obtain ⟨r, o, c, cf, cl, cm, re, rs, rb⟩ := f
  simp only at hr hc
  subst hr hc
  cases r <;> cases o <;> cases c <;> cases cf <;> cases cm <;> cases re <;> cases rb <;> rfl

/-- At every moment, even if the process is killed or the backup cannot be put back, the old binary is
complete at one of the two paths, or the new one is installed (unless writes are lost at close). -/
theorem C38_recoverable_partial (f : Faults) (old new : Str) (b : Option File)
    (hc : f.closeLoses = none) :
    ∀ s ∈ (install f new ⟨some ⟨old, true⟩, b⟩).1,
      s.exec = some ⟨old, true⟩ ∨ s.backup = some ⟨old, true⟩ ∨ s.exec = some ⟨new, true⟩ := by
  obtain ⟨r, o, c, cf, cl, cm, re, rs, rb⟩ := f
  simp only at hc
  subst hc
  cases r <;> cases o <;> cases c <;> cases cf <;> cases cm <;> cases re <;> cases rs <;> cases rb <;>
    simp [install, copyFile, doRestore, lastOr]

example : final allFine (lit "new") ⟨some ⟨lit "old", true⟩, none⟩ = ⟨some ⟨lit "new", true⟩, none⟩ ∧
    final { allFine with copyFails := some 2 } (lit "new") ⟨some ⟨lit "old", true⟩, none⟩ =
      ⟨some ⟨lit "old", true⟩, none⟩ := by decide +kernel

/-! ### C109 -/

def isBinary (e : Entry) : Prop := goBase e.name = lit "gray" ∨ goBase e.name = lit "gray.exe"

instance (e : Entry) : Decidable (isBinary e) := by unfold isBinary; infer_instance

/-- C109 as claimed: what is installed are the bytes of a regular file of the archive named gray. -/
def C109_statement : Prop :=
  ∀ (es : List Entry) (d : Str), extract es = some d → ∃ e ∈ es, e.kind = .file ∧ isBinary e ∧ e.data = d

/-- A link named gray after the binary leaves an empty file. -/
theorem C109_witness : extract [⟨lit "gray-1.0/gray", .file, lit "ELF"⟩, ⟨lit "gray-1.0/bin/gray", .link, []⟩] =
    some [] := by decide +kernel

theorem C109_fails : ¬ C109_statement := by
  intro h
  obtain ⟨e, he, h1, -, h3⟩ := h _ _ C109_witness
  simp only [List.mem_cons, List.not_mem_nil, or_false] at he
  rcases he with rfl | rfl
  · revert h3; decide +kernel
  · cases h1

theorem extractLoop_spec (es : List Entry) : ∀ (fs : Files) (b : Option Str),
    (∀ e ∈ es, isBinary e → e.kind = .file) →
    (∀ n, b = some n → (n = lit "gray" ∨ n = lit "gray.exe") ∧ ∃ d, fs.find? (fun p => p.1 == n) = some (n, d)) →
    ∀ n, (extractLoop es fs b).2 = some n →
      ∃ d, (extractLoop es fs b).1.find? (fun p => p.1 == n) = some (n, d) ∧
        ((∃ e ∈ es, isBinary e ∧ e.data = d) ∨ fs.find? (fun p => p.1 == n) = some (n, d)) := by
  induction es with
  | nil =>
    intro fs b _ hb n hn
    obtain ⟨-, d, hd⟩ := hb n hn
    exact ⟨d, hd, Or.inr hd⟩
  | cons e r ih =>
    intro fs b hk hb n hn
    have hk' : ∀ e ∈ r, isBinary e → e.kind = .file := fun x hx => hk x (List.mem_cons_of_mem _ hx)
    rw [extractLoop] at hn ⊢
    simp only at hn ⊢
    by_cases hw : (!wanted (goBase e.name)) = true
    · rw [if_pos hw] at hn ⊢
      obtain ⟨d, h1, h2⟩ := ih fs b hk' hb n hn
      refine ⟨d, h1, ?_⟩
      rcases h2 with ⟨x, hx, hy⟩ | h2
      · exact Or.inl ⟨x, List.mem_cons_of_mem _ hx, hy⟩
      · exact Or.inr h2
    · rw [if_neg hw] at hn ⊢
      by_cases hbin : isBinary e
      · have hcond : (goBase e.name == lit "gray" || goBase e.name == lit "gray.exe") = true := by
          rw [Bool.or_eq_true, beq_iff_eq, beq_iff_eq]; exact hbin
        rw [hcond, if_pos rfl, if_pos (hk e (by simp) hbin)] at hn ⊢
        obtain ⟨d, h1, h2⟩ := ih _ (some (goBase e.name)) hk' (by
          intro m hm
          injection hm with hm
          subst hm
          exact ⟨hbin, e.data, by simp⟩) n hn
        refine ⟨d, h1, ?_⟩
        rcases h2 with ⟨x, hx, hy⟩ | h2
        · exact Or.inl ⟨x, List.mem_cons_of_mem _ hx, hy⟩
        · rw [List.find?_cons] at h2
          split at h2
          · injection h2 with h2
            injection h2 with _ h2
            exact Or.inl ⟨e, by simp, hbin, h2⟩
          · exact Or.inr h2
      · have hcond : (goBase e.name == lit "gray" || goBase e.name == lit "gray.exe") = false := by
          rw [Bool.eq_false_iff]
          intro h
          rw [Bool.or_eq_true, beq_iff_eq, beq_iff_eq] at h
          exact hbin h
        rw [hcond] at hn ⊢
        simp only [Bool.false_eq_true, if_false] at hn ⊢
        have hne : ∀ m, (m = lit "gray" ∨ m = lit "gray.exe") → ¬ (goBase e.name == m) = true := by
          intro m hm h
          rw [beq_iff_eq] at h
          exact hbin (by unfold isBinary; rw [h]; exact hm)
        obtain ⟨d, h1, h2⟩ := ih _ b hk' (by
          intro m hm
          obtain ⟨g1, d, g2⟩ := hb m hm
          refine ⟨g1, d, ?_⟩
          rw [List.find?_cons, Bool.eq_false_iff.2 (hne m g1)]; exact g2) n hn
        refine ⟨d, h1, ?_⟩
        rcases h2 with ⟨x, hx, hy⟩ | h2
        · exact Or.inl ⟨x, List.mem_cons_of_mem _ hx, hy⟩
        · -- the name found is a binary name
          rw [List.find?_cons] at h2
          split at h2
          · rename_i hq
            exfalso
            have hnn : n = lit "gray" ∨ n = lit "gray.exe" := by
              have key : ∀ (es : List Entry) (fs : Files) (b : Option Str),
                  (∀ n, b = some n → n = lit "gray" ∨ n = lit "gray.exe") →
                  ∀ n, (extractLoop es fs b).2 = some n → n = lit "gray" ∨ n = lit "gray.exe" := by
                intro es
                induction es with
                | nil => intro fs b hb n hn; exact hb n hn
                | cons e r ih =>
                  intro fs b hb n hn
                  rw [extractLoop] at hn
                  simp only at hn
                  split at hn
                  · exact ih fs b hb n hn
                  · refine ih _ _ ?_ n hn
                    intro m hm
                    split at hm
                    · rename_i hc
                      injection hm with hm
                      rw [Bool.or_eq_true, beq_iff_eq, beq_iff_eq] at hc
                      rw [← hm]; exact hc
                    · exact hb m hm
              exact key _ _ _ (fun m hm => (hb m hm).1) n hn
            exact hne n hnn hq
          · exact Or.inr h2

/-- If every entry named gray is a regular file, the installed bytes are those of one of them. -/
theorem C109_partial (es : List Entry) (d : Str) (hk : ∀ e ∈ es, isBinary e → e.kind = .file)
    (h : extract es = some d) : ∃ e ∈ es, e.kind = .file ∧ isBinary e ∧ e.data = d := by
  unfold extract at h
  cases hx : extractLoop es [] none with
  | mk fs b =>
    rw [hx] at h
    cases b with
    | none => cases h
    | some n =>
      have hs := extractLoop_spec es [] none hk (by simp) n (by rw [hx])
      obtain ⟨d', h1, h2⟩ := hs
      rw [hx] at h1
      simp only [h1, Option.map_some] at h
      injection h with h
      subst h
      rcases h2 with ⟨e, he, hb, hd⟩ | h2
      · exact ⟨e, he, hk e he hb, hb, hd⟩
      · cases h2

/-- An archive with no entry named gray is refused, and only such an archive is. -/
theorem C109_none_partial (es : List Entry) : extract es = none ↔ ∀ e ∈ es, ¬ isBinary e := by
  have key : ∀ (es : List Entry) (fs : Files) (b : Option Str),
      (∀ n, b = some n → (fs.find? fun p => p.1 == n) ≠ none) →
      ((extractLoop es fs b).2 = none ↔ b = none ∧ ∀ e ∈ es, ¬ isBinary e) ∧
      (∀ n, (extractLoop es fs b).2 = some n → ((extractLoop es fs b).1.find? fun p => p.1 == n) ≠ none) := by
    intro es
    induction es with
    | nil => intro fs b hb; exact ⟨by simp [extractLoop], hb⟩
    | cons e r ih =>
      intro fs b hb
      rw [extractLoop]
      simp only
      by_cases hw : (!wanted (goBase e.name)) = true
      · rw [if_pos hw]
        obtain ⟨i1, i2⟩ := ih fs b hb
        refine ⟨?_, i2⟩
        rw [i1]
        have : ¬ isBinary e := by
          intro h
          revert hw
          rcases h with h | h <;> rw [h] <;> decide
        simp [this]
      · rw [if_neg hw]
        by_cases hbin : isBinary e
        · have hcond : (goBase e.name == lit "gray" || goBase e.name == lit "gray.exe") = true := by
            rw [Bool.or_eq_true, beq_iff_eq, beq_iff_eq]; exact hbin
          rw [hcond, if_pos rfl]
          obtain ⟨i1, i2⟩ := ih (((goBase e.name), (if e.kind = .file then e.data else [])) :: fs)
            (some (goBase e.name)) (by
              intro n hn
              injection hn with hn
              subst hn
              simp)
          refine ⟨?_, i2⟩
          rw [i1]
          simp [hbin]
        · have hcond : (goBase e.name == lit "gray" || goBase e.name == lit "gray.exe") = false := by
            rw [Bool.eq_false_iff]
            intro h
            rw [Bool.or_eq_true, beq_iff_eq, beq_iff_eq] at h
            exact hbin h
          rw [hcond]
          simp only [Bool.false_eq_true, if_false]
          obtain ⟨i1, i2⟩ := ih (((goBase e.name), (if e.kind = .file then e.data else [])) :: fs) b (by
              intro n hn
              rw [List.find?_cons]
              split
              · simp
              · exact hb n hn)
          refine ⟨?_, i2⟩
          rw [i1]
          simp [hbin]
  obtain ⟨k1, k2⟩ := key es [] none (by simp)
  unfold extract
  cases hx : extractLoop es [] none with
  | mk fs b =>
    rw [hx] at k1 k2
    cases b with
    | none => exact ⟨fun _ => (k1.1 rfl).2, fun _ => rfl⟩
    | some n =>
      have := k2 n rfl
      simp only at k1 this
      simp only [reduceCtorEq, true_and, false_iff] at k1
      simp only [Option.map_eq_none_iff]
      exact ⟨fun h => absurd h this, fun h => absurd h k1⟩

example : extract [⟨lit "README", .file, []⟩, ⟨lit "x/gray", .file, lit "ELF"⟩] = some (lit "ELF") := by
  decide +kernel

end Verif.Props

import Verif.Model.Extract

/-!
# C251 to C253: unpacking the compiler, and `gray fmt`
-/

namespace Verif.Props

open Verif.Extract

namespace Xt

def noDir : Home := fun _ _ => none

/-- Builds that unpack one after the other, each stopped after some number of files. -/
def unpackAll (tag : Bytes → Bytes → Nat) (h : Home) : List (Build × Nat) → Home
  | [] => h
  | (b, k) :: l => unpackAll tag (extract tag h b k) l

/-- The directory of a build holds all its files. -/
def Whole (tag : Bytes → Bytes → Nat) (h : Home) (b : Build) : Prop := ∀ f ∈ b.files, h (tag b.compiler b.library) f.1 = some f.2

/-- The names of the files of a build differ. -/
def Plain (b : Build) : Prop := (b.files.map Prod.fst).Nodup

theorem write_self (d : Dir) (f : Nat × Bytes) (h : ∀ c, d f.1 = some c → c.length = f.2.length → c = f.2) : writeIfMissing d f f.1 = some f.2 := by
  unfold writeIfMissing
  cases hd : d f.1 with
  | none => simp
  | some c =>
    simp only
    split
    · rename_i hl
      rw [hd, h c hd hl]
    · simp

theorem write_other (d : Dir) (f : Nat × Bytes) {n : Nat} (h : n ≠ f.1) : writeIfMissing d f n = d n := by
  unfold writeIfMissing
  cases hd : d f.1 with
  | none => simp [h]
  | some c =>
    simp only
    split
    · rfl
    · simp [h]

theorem fold_other {l : List (Nat × Bytes)} : ∀ {d : Dir} {n : Nat}, n ∉ l.map Prod.fst → l.foldl writeIfMissing d n = d n := by
  induction l with
  | nil => intro d n _; rfl
  | cons f l ih =>
    intro d n h
    simp only [List.map_cons, List.mem_cons, not_or] at h
    rw [List.foldl_cons, ih h.2, write_other d f h.1]

theorem fold_self {l : List (Nat × Bytes)} : ∀ {d : Dir}, (l.map Prod.fst).Nodup → (∀ f ∈ l, ∀ c, d f.1 = some c → c.length = f.2.length → c = f.2) →
    ∀ f ∈ l, l.foldl writeIfMissing d f.1 = some f.2 := by
  induction l with
  | nil => intro d _ _ f hf; cases hf
  | cons g l ih =>
    intro d hn h f hf
    rw [List.map_cons, List.nodup_cons] at hn
    rw [List.foldl_cons]
    rcases List.mem_cons.1 hf with rfl | hf
    · rw [fold_other hn.1, write_self d f (h f (by simp))]
    · refine ih hn.2 (fun f hf c hc => ?_) f hf
      have hne : f.1 ≠ g.1 := fun e => hn.1 (by rw [← e]; exact List.mem_map_of_mem hf)
      rw [write_other d g hne] at hc
      exact h f (by simp [hf]) c hc

/-- Whatever is there is either what a build of this tag wants. -/
def Clean (tag : Bytes → Bytes → Nat) (bs : List Build) (h : Home) : Prop :=
  ∀ b ∈ bs, ∀ f ∈ b.files, ∀ c, h (tag b.compiler b.library) f.1 = some c → c = f.2

theorem fold_clean {l : List (Nat × Bytes)} : ∀ {d : Dir} {n : Nat} {c : Bytes}, l.foldl writeIfMissing d n = some c → d n = some c ∨ (n, c) ∈ l := by
  induction l with
  | nil => intro d n c h; exact .inl h
  | cons f l ih =>
    intro d n c h
    rw [List.foldl_cons] at h
    rcases ih h with h | h
    · by_cases hn : n = f.1
      · subst hn
        unfold writeIfMissing at h
        cases hd : d f.1 with
        | none =>
          rw [hd] at h
          simp at h
          exact .inr (by rw [← h]; simp)
        | some x =>
          rw [hd] at h
          simp only at h
          by_cases e : x.length = f.2.length
          · rw [if_pos e, hd] at h
            exact .inl h
          · rw [if_neg e] at h
            simp at h
            exact .inr (by rw [← h]; simp)
      · rw [write_other d f hn] at h
        exact .inl h
    · exact .inr (by simp [h])

end Xt

open Xt

/-- C251: after a build has unpacked its files, they are there as it has them, whatever other builds have unpacked before. -/
def C251_statement : Prop :=
  ∀ (tag : Bytes → Bytes → Nat) (l : List (Build × Nat)) (b : Build) (k : Nat), (∀ c ∈ l, Plain c.1) → Plain b → b.files.length ≤ k →
    Whole tag (unpackAll tag noDir (l ++ [(b, k)])) b

/-- C251 fails: the tag says nothing of the sources. A new version of a header of the same size is not unpacked. -/
theorem C251_unpack_fails : ¬ C251_statement := by
  intro h
  have := h (fun _ _ => 0) [(⟨[1], [2], [(2, [3])]⟩, 3)] ⟨[1], [2], [(2, [4])]⟩ 3 (by simp [Plain, Build.files, compilerName, libraryName])
    (by simp [Plain, Build.files, compilerName, libraryName]) (by simp [Build.files]) (2, [4]) (by simp [Build.files])
  revert this
  decide

/-- C251: it holds for builds of which those with one tag are one and the same; also if any of them was stopped at any point. Missing:
builds that differ in the sources only. -/
theorem C251_unpack_partial (tag : Bytes → Bytes → Nat) (l : List (Build × Nat)) (b : Build) (k : Nat) (hp : Plain b) (hk : b.files.length ≤ k)
    (ht : ∀ c ∈ l, tag c.1.compiler c.1.library = tag b.compiler b.library → c.1 = b) :
    Whole tag (unpackAll tag noDir (l ++ [(b, k)])) b := by
  have app : ∀ (l l' : List (Build × Nat)) (h : Home), unpackAll tag h (l ++ l') = unpackAll tag (unpackAll tag h l) l' := by
    intro l l'
    induction l with
    | nil => intro h; rfl
    | cons x l ih => intro h; exact ih _
  have nodup : ∀ (l : List (Nat × Bytes)), (l.map Prod.fst).Nodup → ∀ n c c', (n, c) ∈ l → (n, c') ∈ l → c = c' := by
    intro l
    induction l with
    | nil => intro _ n c c' h; cases h
    | cons x l ih =>
      intro hn n c c' h h'
      rw [List.map_cons, List.nodup_cons] at hn
      rcases List.mem_cons.1 h with e | h
      · rcases List.mem_cons.1 h' with e' | h'
        · exact (Prod.mk.inj (e.trans e'.symm)).2
        · exact absurd (List.mem_map_of_mem (f := Prod.fst) h') (by rw [← e] at hn; exact hn.1)
      · rcases List.mem_cons.1 h' with e' | h'
        · exact absurd (List.mem_map_of_mem (f := Prod.fst) h) (by rw [← e'] at hn; exact hn.1)
        · exact ih hn.2 n c c' h h'
  have clean : ∀ (l : List (Build × Nat)) (h : Home), (∀ c ∈ l, tag c.1.compiler c.1.library = tag b.compiler b.library → c.1 = b) → Clean tag [b] h →
      Clean tag [b] (unpackAll tag h l) := by
    intro l
    induction l with
    | nil => intro h _ hc; exact hc
    | cons x l ih =>
      intro h hl hc
      obtain ⟨x, m⟩ := x
      refine ih _ (fun c hc => hl c (by simp [hc])) ?_
      intro b' hb' f hf c hcc
      simp only [List.mem_singleton] at hb'
      subst hb'
      unfold extract at hcc
      by_cases e : tag b'.compiler b'.library = tag x.compiler x.library
      · rw [if_pos e] at hcc
        have : x = b' := hl (x, m) (by simp) e.symm
        subst this
        rcases fold_clean hcc with hcc | hcc
        · exact hc x (by simp) f hf c hcc
        · exact nodup _ hp f.1 c f.2 (List.mem_of_mem_take hcc) hf
      · rw [if_neg e] at hcc
        exact hc b' (by simp) f hf c hcc
  have hc := clean l noDir ht (by intro b' _ f _ c h; cases h)
  rw [app]
  intro f hf
  show extract tag (unpackAll tag noDir l) b k (tag b.compiler b.library) f.1 = some f.2
  unfold extract
  simp only [if_true]
  rw [List.take_of_length_le hk]
  exact fold_self hp (fun g hg c h _ => hc b (by simp) g hg c h) f hf

/-! ### C252: two processes -/

/-- C252: when a process has gone through, the file is there and whole. -/
def C252_statement : Prop :=
  ∀ (want : Bytes) (s : List Bool) (d : Disk) (p q : Stage), run want ⟨none, none, fun _ => [], 0⟩ .look .look s = (d, p, q) →
    p ≠ .failed ∧ (p = .done → d.content = some want)

/-- C252 fails: the second process cuts the temporary file just before the first gives it its name. The first then goes on with an empty
file. -/
theorem C252_together_fails : ¬ C252_statement := by
  intro h
  have := (h [7] [true, true, true, false, false, true] _ _ _ rfl).2 rfl
  revert this
  decide

/-- C252: or the first moves the file away that the second has written, which then fails. -/
theorem C252_failed_witness : (run [7] ⟨none, none, fun _ => [], 0⟩ .look .look [false, true, true, true, false, false, true, false]).2 = (.done, .failed) := by
  decide

/-- C252: a file of the right size is taken as it is, whatever it holds. -/
theorem C252_size_witness : (run [7] ⟨some 0, none, fun _ => [9], 1⟩ .look .look [true]).1.content = some [9] := by decide

/-- C252: a process that is alone leaves the whole file, if nothing but the whole file could have its size. Missing: two processes at a
time. -/
theorem C252_alone_partial (want : Bytes) (d : Disk) (q : Stage) (n : Nat) (h1 : ∀ i, d.file = some i → (d.data i).length = want.length → d.data i = want)
    (hn : 4 ≤ n) : (run want d .look q (List.replicate n true)).2.1 = .done ∧ (run want d .look q (List.replicate n true)).1.content = some want := by
  have fin : ∀ (n : Nat) (d : Disk), run want d .done q (List.replicate n true) = (d, .done, q) := by
    intro n
    induction n with
    | zero => intro d; rfl
    | succ n ih => intro d; rw [List.replicate_succ, run]; exact ih d
  obtain ⟨m, rfl⟩ : ∃ m, n = m + 4 := ⟨n - 4, by omega⟩
  have cutting : ∀ (d : Disk) (m : Nat), (run want d .cut q (List.replicate (m + 3) true)).2.1 = .done ∧
      (run want d .cut q (List.replicate (m + 3) true)).1.content = some want := by
    intro d m
    obtain ⟨file, tmp, data, fresh⟩ := d
    cases tmp with
    | none =>
      simp only [List.replicate_succ, run, step, Disk.put]
      rw [fin]
      simp [Disk.content]
    | some i =>
      simp only [List.replicate_succ, run, step, Disk.put]
      rw [fin]
      simp [Disk.content]
  rw [List.replicate_succ, run]
  unfold step
  cases hf : d.file with
  | none => exact cutting d m
  | some i =>
    simp only
    by_cases e : (d.data i).length = want.length
    · rw [if_pos e]
      simp only
      rw [fin]
      refine ⟨rfl, ?_⟩
      unfold Disk.content
      rw [hf, Option.map_some, h1 i hf e]
    · rw [if_neg e]
      exact cutting d m

/-! ### C253: `gray fmt` -/

namespace Xt

/-- The file is formatted. -/
def Neat : File → Prop
  | .good text formatted => text = formatted
  | _ => False

end Xt

/-- C253: `gray fmt --check` gives 0 only if all that was named is there and formatted. -/
def C253_statement : Prop :=
  ∀ (look : Nat → File) (args : List Arg), runFmt look true args = 0 → ∀ a ∈ args, ∃ l, a = .files l ∧ ∀ f ∈ l, Neat (look f)

/-- C253 fails: a file that does not exist. -/
theorem C253_check_fails : ¬ C253_statement := by
  intro h
  obtain ⟨l, e, -⟩ := h (fun _ => .unreadable) [.missing] (by decide) .missing (by simp)
  cases e

/-- C253: a file with errors counts as formatted with `--check`, and not without. -/
theorem C253_broken_witness (t : Bytes) : runFmt (fun _ => .broken t) true [.files [0]] = 0 ∧ runFmt (fun _ => .broken t) false [.files [0]] = 1 := by
  simp [runFmt, collect, checkBad, formatBad]

namespace Xt

theorem mem_fold {l : List Nat} : ∀ {a : List Nat} {x : Nat}, x ∈ l.foldl (fun fs f => if f ∈ fs then fs else fs ++ [f]) a ↔ x ∈ a ∨ x ∈ l := by
  induction l with
  | nil => simp
  | cons y l ih =>
    intro a x
    rw [List.foldl_cons, ih]
    by_cases hy : y ∈ a
    · rw [if_pos hy]
      constructor
      · rintro (h | h)
        · exact .inl h
        · exact .inr (by simp [h])
      · rintro (h | h)
        · exact .inl h
        · rcases List.mem_cons.1 h with rfl | h
          · exact .inl hy
          · exact .inr h
    · rw [if_neg hy]
      simp only [List.mem_append, List.mem_cons, List.not_mem_nil, or_false]
      constructor
      · rintro ((h | h) | h)
        · exact .inl h
        · exact .inr (.inl h)
        · exact .inr (.inr h)
      · rintro (h | h | h)
        · exact .inl (.inl h)
        · exact .inl (.inr h)
        · exact .inr h

theorem nodup_fold {l : List Nat} : ∀ {a : List Nat}, a.Nodup → (l.foldl (fun fs f => if f ∈ fs then fs else fs ++ [f]) a).Nodup := by
  induction l with
  | nil => intro a h; exact h
  | cons y l ih =>
    intro a h
    rw [List.foldl_cons]
    apply ih
    split
    · exact h
    · rename_i hy
      rw [List.nodup_append]
      refine ⟨h, by simp, ?_⟩
      intro x hx z hz e
      simp only [List.mem_singleton] at hz
      exact hy (by rw [← hz, ← e]; exact hx)

theorem mem_collect {args : List Arg} {x : Nat} : x ∈ collect args ↔ ∃ l, Arg.files l ∈ args ∧ x ∈ l := by
  unfold collect
  rw [mem_fold]
  simp only [List.not_mem_nil, false_or, List.mem_flatMap]
  constructor
  · rintro ⟨a, ha, hx⟩
    cases a with
    | missing => simp at hx
    | files l => exact ⟨l, ha, hx⟩
  · rintro ⟨l, ha, hx⟩
    exact ⟨_, ha, hx⟩

end Xt

/-- C253: each file is gone through once. -/
theorem C253_once (args : List Arg) : (collect args).Nodup := nodup_fold List.nodup_nil

/-- C253: if all that was named is there and the formatter can read all of it, `--check` gives 0 exactly if all is formatted. Missing: files
that are not there, and those with errors. -/
theorem C253_check_partial (look : Nat → File) (args : List Arg) (hb : ∀ l, Arg.files l ∈ args → ∀ f ∈ l, ∀ t, look f ≠ .broken t) :
    runFmt look true args = 0 ↔ ∀ l, Arg.files l ∈ args → ∀ f ∈ l, Neat (look f) := by
  unfold runFmt
  constructor
  · intro h l hl f hf
    by_cases hany : (collect args).any (fun f => if true then checkBad (look f) else formatBad (look f)) = true
    · rw [if_pos hany] at h; cases h
    · have h0 : checkBad (look f) = false := by
        refine eq_false_of_ne_true fun hc => hany ?_
        rw [List.any_eq_true]
        exact ⟨f, mem_collect.2 ⟨l, hl, hf⟩, by simpa using hc⟩
      have hb' := hb l hl f hf
      revert h0 hb'
      cases look f with
      | unreadable => intro h; cases h
      | broken t => intro _ h; exact absurd rfl (h t)
      | good t g => intro h _; exact (by simpa [checkBad] using h : t = g)
  · intro h
    rw [if_neg]
    intro hany
    rw [List.any_eq_true] at hany
    obtain ⟨f, hf, hc⟩ := hany
    obtain ⟨l, hl, hf⟩ := mem_collect.1 hf
    have hn := h l hl f hf
    revert hn hc
    cases look f with
    | unreadable => intro _ h; exact h
    | broken t => intro _ h; exact h
    | good t g => intro hc h; simp [checkBad] at hc; exact hc h

/-- C253: without `--check`, the exit code is 0 exactly if all files were read and formatted. -/
theorem C253_format (look : Nat → File) (args : List Arg) :
    runFmt look false args = 0 ↔ ∀ l, Arg.files l ∈ args → ∀ f ∈ l, ∃ t g, look f = .good t g := by
  unfold runFmt
  constructor
  · intro h l hl f hf
    by_cases hany : (collect args).any (fun f => if false then checkBad (look f) else formatBad (look f)) = true
    · rw [if_pos hany] at h; cases h
    · have h0 : formatBad (look f) = false := by
        refine eq_false_of_ne_true fun hc => hany ?_
        rw [List.any_eq_true]
        exact ⟨f, mem_collect.2 ⟨l, hl, hf⟩, by simpa using hc⟩
      revert h0
      cases look f with
      | unreadable => intro h; cases h
      | broken t => intro h; cases h
      | good t g => intro _; exact ⟨t, g, rfl⟩
  · intro h
    rw [if_neg]
    intro hany
    rw [List.any_eq_true] at hany
    obtain ⟨f, hf, hc⟩ := hany
    obtain ⟨l, hl, hf⟩ := mem_collect.1 hf
    obtain ⟨t, g, e⟩ := h l hl f hf
    rw [e] at hc
    simp [formatBad] at hc

example : runFmt (fun n => .good [BitVec.ofNat 8 n] [0]) true [.files [0, 0]] = 0 ∧ runFmt (fun n => .good [BitVec.ofNat 8 n] [0]) true [.files [0, 1]] = 1 := by decide

end Verif.Props

import Verif.Model.Unpack
/-
C351–C354: extraction of the embedded runtime, and the compiler that is found.
-/
namespace Verif.Props
open Verif.Unpack

namespace Xr

/-- The two names are different files, and unused inodes have no name. -/
structure Sane (s : FS) : Prop where
  apart : ∀ i, s.path = some i → s.tmp ≠ some i
  pathOld : ∀ i, s.path = some i → i < s.fresh
  tmpOld : ∀ i, s.tmp = some i → i < s.fresh

theorem writeAt_prefix {data d : Data} {off n : Nat} (hd : d = data.take off) (ho : off + n ≤ data.length) :
    writeAt d off ((data.drop off).take n) = data.take (off + n) := by
  have hl : d.length = off := by rw [hd, List.length_take]; omega
  have hn : ((data.drop off).take n).length = n := by rw [List.length_take, List.length_drop]; omega
  unfold writeAt
  rw [hl, hn, Nat.sub_self, List.replicate_zero, List.append_nil, ← hl, List.take_length, hl]
  have : d.drop (off + n) = [] := List.drop_eq_nil_of_le (by omega)
  rw [this, List.append_nil, hd, List.take_add]

/-- What one process alone may have done so far -/
inductive Inv (data : Data) (s : FS) : FS → Pc → Prop
  | start : Inv data s s .start
  | absent : Inv data s s .absent
  | writing {s' i off} : s'.path = s.path → s'.tmp = some i → (∀ j, s.path = some j → j ≠ i ∧ s'.inode j = s.inode j) →
      off ≤ data.length → s'.inode i = data.take off → Inv data s s' (.writing i off)
  | ready {s' i} : s'.path = s.path → s'.tmp = some i → (∀ j, s.path = some j → j ≠ i ∧ s'.inode j = s.inode j) →
      s'.inode i = data → Inv data s s' .renaming
  | present {i} : s.path = some i → (s.inode i).length = data.length → Inv data s s (.done true)
  | renamed {s'} : content s' = some data → Inv data s s' (.done true)
  | failed {s'} : content s' = content s → Inv data s s' (.done false)

theorem same_content {s s' : FS} (hp : s'.path = s.path) (h : ∀ j, s.path = some j → s'.inode j = s.inode j) : content s' = content s := by
  unfold content
  rw [hp]
  cases hq : s.path with
  | none => rfl
  | some j => rw [Option.map_some, Option.map_some, h j hq]

theorem inv {data : Data} {s : FS} (hs : Sane s) {s' : FS} {pc : Pc} (h : Alone data s s' pc) : Inv data s s' pc := by
  induction h with
  | start => exact .start
  | step _ st ih =>
    cases st with
    | present h1 h2 =>
      cases ih
      exact .present h1 h2
    | absent _ =>
      cases ih
      exact .absent
    | opened =>
      cases ih
      unfold openTmp
      cases ht : s.tmp with
      | some i =>
        refine .writing rfl rfl (fun j hj => ?_) (Nat.zero_le _) (by simp [upd])
        have : j ≠ i := fun e => hs.apart j hj (by rw [ht, e])
        exact ⟨this, by simp [upd, this]⟩
      | none =>
        refine .writing rfl rfl (fun j hj => ?_) (Nat.zero_le _) (by simp [upd])
        have : j ≠ s.fresh := Nat.ne_of_lt (hs.pathOld j hj)
        exact ⟨this, by simp [upd, this]⟩
    | write n hn =>
      cases ih with
      | writing h1 h2 h3 h4 h5 =>
        refine .writing h1 h2 (fun j hj => ?_) hn ?_
        · obtain ⟨a, b⟩ := h3 j hj
          exact ⟨a, by simp [upd, a, b]⟩
        · simp only [upd, if_true]
          exact writeAt_prefix h5 hn
    | failed =>
      cases ih with
      | writing h1 h2 h3 h4 h5 => exact .failed (same_content h1 fun j hj => (h3 j hj).2)
    | closed =>
      cases ih with
      | writing h1 h2 h3 h4 h5 => exact .ready h1 h2 h3 (by rw [h5, List.take_length])
    | renamed h =>
      cases ih with
      | ready h1 h2 h3 h4 =>
        rw [h2] at h
        cases h
        exact .renamed (by simp [content, h4])
    | gone h =>
      cases ih with
      | ready h1 h2 h3 h4 => rw [h2] at h; cases h

def empty : FS := ⟨fun _ => [], 0, none, none⟩

theorem sane_empty : Sane empty := ⟨nofun, nofun, nofun⟩

def two : Data := [1, 2]

/-- The directory after both processes opened the same file, which one of them then renamed -/
def raced : FS := ⟨upd (upd (upd (fun _ => []) 0 []) 0 (writeAt [] 0 two)) 0 [], 1, some 0, none⟩

/-- One process has written all, another truncates the file, the first renames it. -/
theorem race : ∃ s pcs, Many two empty s pcs ∧ pcs 0 = .done true ∧ pcs 1 = .writing 0 0 ∧ s.tmp = none ∧ content s = some [] := by
  have h0 : Many two empty empty fun _ => .start := .start
  have h1 := h0.step 0 (.absent nofun)
  have h2 := h1.step 0 .opened
  have h3 := h2.step 0 (.write 2 (by decide))
  have h4 := h3.step 0 (.closed (data := two))
  have h5 := h4.step 1 (.absent nofun)
  have h6 := h5.step 1 .opened
  have h7 := h6.step 0 (.renamed (i := 0) rfl)
  exact ⟨_, _, h7, rfl, rfl, rfl, rfl⟩

/-- … and then finds nothing to rename. -/
theorem race_lost : ∃ s pcs, Many two empty s pcs ∧ pcs 1 = .renaming ∧ s.tmp = none := by
  have h0 : Many two empty empty fun _ => .start := .start
  have h1 := h0.step 0 (.absent nofun)
  have h2 := h1.step 0 .opened
  have h3 := h2.step 0 (.write 2 (by decide))
  have h4 := h3.step 0 (.closed (data := two))
  have h5 := h4.step 1 (.absent nofun)
  have h6 := h5.step 1 .opened
  have h7 := h6.step 0 (.renamed (i := 0) rfl)
  have h8 := h7.step 1 (.write 2 (by decide))
  have h9 := h8.step 1 (.closed (data := two))
  exact ⟨_, _, h9, rfl, rfl⟩

end Xr

open Xr

/-- C351: a process for which `writeIfMissing` has succeeded finds the embedded bytes in the file. -/
def C351_statement : Prop :=
  ∀ data s s' pcs p, Sane s → Many data s s' pcs → pcs p = .done true → content s' = some data

/-- Two processes started together: the first is done, and the file is empty. -/
theorem C351_witness : ∃ s pcs, Many two empty s pcs ∧ pcs 0 = .done true ∧ content s = some [] := by
  obtain ⟨s, pcs, h, h0, _, _, hc⟩ := race
  exact ⟨s, pcs, h, h0, hc⟩

theorem C351_fails : ¬ C351_statement := fun h => by
  obtain ⟨s, pcs, hm, h0, hc⟩ := C351_witness
  have := h two empty s pcs 0 sane_empty hm h0
  rw [hc] at this
  exact absurd this (by decide)

/-- A file of the right size is taken for the embedded one, whatever its bytes, and nothing is changed. -/
theorem C351_size (data : Data) (s : FS) (i : Nat) (hi : s.path = some i) (hl : (s.inode i).length = data.length) :
    Alone data s s (.done true) ∧ ∀ s' pc, Alone data s s' pc → s' = s ∧ (pc = .start ∨ pc = .done true) := by
  refine ⟨Alone.step .start (.present hi hl), fun s' pc h => ?_⟩
  induction h with
  | start => exact ⟨rfl, Or.inl rfl⟩
  | step _ st ih =>
    obtain ⟨rfl, rfl | rfl⟩ := ih
    · cases st with
      | present => exact ⟨rfl, Or.inr rfl⟩
      | absent h => exact absurd hl (h i hi)
    · cases st

/-- For one process alone: the file has the embedded bytes when it is done, unless one of the same size was there.  Missing: several processes, and
other bytes of the same size. -/
theorem C351_partial (data : Data) (s s' : FS) (hs : Sane s) (h : Alone data s s' (.done true)) :
    content s' = some data ∨ (s' = s ∧ ∃ d, content s = some d ∧ d.length = data.length) := by
  cases inv hs h with
  | present h1 h2 => exact Or.inr ⟨rfl, _, by simp [content, h1], h2⟩
  | renamed h => exact Or.inl h

/-- C352: if one process is stopped at any point, the file is as before or has all embedded bytes. -/
theorem C352_crash (data : Data) (s s' : FS) (pc : Pc) (hs : Sane s) (h : Alone data s s' pc) : content s' = content s ∨ content s' = some data := by
  cases inv hs h with
  | start => exact Or.inl rfl
  | absent => exact Or.inl rfl
  | writing h1 h2 h3 h4 h5 => exact Or.inl (same_content h1 fun j hj => (h3 j hj).2)
  | ready h1 h2 h3 h4 => exact Or.inl (same_content h1 fun j hj => (h3 j hj).2)
  | present h1 h2 => exact Or.inl rfl
  | renamed => exact Or.inr (by assumption)
  | failed => exact Or.inl (by assumption)

/-- C353: a process that has written all bytes finds its file to rename. -/
def C353_statement : Prop := ∀ data s s' pcs p, Sane s → Many data s s' pcs → pcs p = .renaming → s'.tmp ≠ none

/-- The file of the second process has been renamed by the first. -/
theorem C353_witness : ∃ s pcs, Many two empty s pcs ∧ pcs 1 = .renaming ∧ s.tmp = none := race_lost

theorem C353_fails : ¬ C353_statement := fun h => by
  obtain ⟨s, pcs, hm, h1, ht⟩ := C353_witness
  exact h two empty s pcs 1 sane_empty hm h1 ht

/-- One process alone does, and its file has the embedded bytes.  Missing: several processes. -/
theorem C353_partial (data : Data) (s s' : FS) (hs : Sane s) (h : Alone data s s' .renaming) : ∃ i, s'.tmp = some i ∧ s'.inode i = data := by
  cases inv hs h with
  | ready h1 h2 h3 h4 => exact ⟨_, h2, h4⟩

example : Alone two empty (openTmp empty).1 (.writing 0 0) := Alone.step (Alone.step .start (.absent nofun)) .opened

namespace Xr

theorem put_other {d : String → Option Data} {f g : String} (data : Data) (h : g ≠ f) : put d f data g = d g := by simp [put, h]

theorem fold_other (l : List (String × Data)) : ∀ (d : String → Option Data) (g : String), (∀ f ∈ l, f.1 ≠ g) →
    l.foldl (fun d f => put d f.1 f.2) d g = d g := by
  induction l with
  | nil => intro d g _; rfl
  | cons f l ih =>
    intro d g h
    rw [List.foldl_cons, ih _ _ fun f hf => h f (List.mem_cons_of_mem _ hf)]
    exact put_other _ (fun e => h f (List.mem_cons_self ..) e.symm)

theorem fold_mem (l : List (String × Data)) : ∀ (d : String → Option Data) (f : String × Data), (l.map (·.1)).Nodup → f ∈ l →
    l.foldl (fun d f => put d f.1 f.2) d f.1 = put d f.1 f.2 f.1 := by
  induction l with
  | nil => intro d f _ h; cases h
  | cons e l ih =>
    intro d f hn h
    rw [List.map_cons, List.nodup_cons] at hn
    rw [List.foldl_cons]
    rcases List.mem_cons.1 h with rfl | h
    · exact fold_other l _ _ fun g hg e => hn.1 (e ▸ List.mem_map_of_mem hg)
    · rw [ih _ f hn.2 h]
      have : f.1 ≠ e.1 := fun q => hn.1 (q ▸ List.mem_map_of_mem h)
      simp [put, this]

/-- A build with all files -/
structure Full (b : Build) : Prop where
  grayc : b.grayc ≠ []
  lib : b.lib ≠ []
  names : ("grayc" :: "libgrayrt.a" :: b.src.map (·.1)).Nodup

theorem extract_file {hash : Data → Data} {h : Home} {b : Build} (hb : Full b) {f : String × Data} (hf : f ∈ ("grayc", b.grayc) :: ("libgrayrt.a", b.lib) :: b.src) :
    extract hash h b (tag hash b) f.1 = put (h (tag hash b)) f.1 f.2 f.1 := by
  unfold extract
  have h1 : b.grayc.isEmpty = false := by simpa using hb.grayc
  have h2 : b.lib.isEmpty = false := by simpa using hb.lib
  rw [h1, h2]
  simp only [Bool.or_self, Bool.false_eq_true, if_false, if_true]
  exact fold_mem _ _ f hb.names hf

def old : Build := ⟨[1], [2], [("src/runtime/runtime.h", [3])]⟩
def new : Build := ⟨[1], [2], [("src/runtime/runtime.h", [4])]⟩

theorem full_new : Full new := ⟨by decide, by decide, by decide⟩
theorem full_old : Full old := ⟨by decide, by decide, by decide⟩

end Xr

/-- C354: after the extraction of a build its directory has the files of the build, whatever builds were extracted before. -/
def C354_statement : Prop :=
  ∀ hash (bs : List Build) b, Full b → (∀ c ∈ bs, Full c) → ∀ f ∈ ("grayc", b.grayc) :: ("libgrayrt.a", b.lib) :: b.src,
    extract hash (bs.foldl (extract hash) fun _ _ => none) b (tag hash b) f.1 = some f.2

/-- The tag does not depend on the source tree: a header of the same size stays the old one. -/
theorem C354_witness (hash : Data → Data) :
    tag hash old = tag hash new ∧
      extract hash (extract hash (fun _ _ => none) old) new (tag hash new) "src/runtime/runtime.h" = some [3] := by
  refine ⟨rfl, ?_⟩
  rw [extract_file (f := ("src/runtime/runtime.h", [4])) full_new (by simp [new])]
  have := extract_file (hash := hash) (h := fun _ _ => none) (f := ("src/runtime/runtime.h", [3])) full_old (by simp [old])
  have ht : tag hash new = tag hash old := rfl
  unfold put
  rw [ht, this]
  simp [put]

theorem C354_fails : ¬ C354_statement := fun h => by
  have := h id [old] new full_new (fun c hc => by rw [List.mem_singleton.1 hc]; exact full_old) ("src/runtime/runtime.h", [4]) (by simp [new])
  have hw := (C354_witness id).2
  rw [List.foldl_cons, List.foldl_nil] at this
  rw [hw] at this
  exact absurd this (by decide)

/-- A file is that of the build exactly if there was none of that size or it had the same bytes.  Missing: other files of the same size. -/
theorem C354_partial (hash : Data → Data) (h : Home) (b : Build) (hb : Full b) (f : String × Data)
    (hf : f ∈ ("grayc", b.grayc) :: ("libgrayrt.a", b.lib) :: b.src) :
    extract hash h b (tag hash b) f.1 = some f.2 ↔ ∀ d, h (tag hash b) f.1 = some d → d.length = f.2.length → d = f.2 := by
  rw [extract_file hb hf]
  unfold put
  simp only [if_true]
  cases h (tag hash b) f.1 with
  | none => simp
  | some d =>
    by_cases hl : d.length = f.2.length
    · simp [hl]
    · simp [hl]

/-- The directories of builds with other tags are left alone. -/
theorem C354_apart (hash : Data → Data) (h : Home) (b c : Build) (hn : tag hash b ≠ tag hash c) : extract hash h b (tag hash c) = h (tag hash c) := by
  unfold extract
  split
  · rfl
  · simp [hn.symm]

/-- Compiler and library are hashed as one text: where one ends and the other begins does not matter. -/
theorem C354_boundary (hash : Data → Data) (a x b : Data) (src src' : List (String × Data)) :
    tag hash ⟨a ++ x, b, src⟩ = tag hash ⟨a, x ++ b, src'⟩ := by simp [tag]

/-- C355: the compiler named by `GRAY_COMPILER_PATH` is used if it is set. -/
def C355_statement : Prop := ∀ w : World, w.override ≠ "" → find w = some w.override

/-- If it is not there, another one is used without a word. -/
theorem C355_witness : find ⟨"/opt/grayc", fun _ => false, some "embedded", none, none⟩ = some "embedded" := by decide

theorem C355_fails : ¬ C355_statement := fun h => by
  have := h ⟨"/opt/grayc", fun _ => false, some "embedded", none, none⟩ (by decide)
  rw [C355_witness] at this
  exact absurd this (by decide)

/-- It is used if it is a regular file.  Missing: other names. -/
theorem C355_partial (w : World) (h : w.override ≠ "") (hr : w.regular w.override = true) : find w = some w.override := by
  unfold find
  rw [if_pos ⟨h, hr⟩]

/-- No compiler is found exactly if none of the places has one. -/
theorem C355_none (w : World) : find w = none ↔
    (w.override ≠ "" → w.regular w.override = false) ∧ w.embedded = none ∧ (∀ p, w.beside = some p → w.regular p = false) ∧ w.inPath = none ∧
      w.regular "/usr/local/bin/grayc" = false ∧ w.regular "/usr/bin/grayc" = false := by
  obtain ⟨o, r, e, b, i⟩ := w
  unfold find
  by_cases h : o ≠ "" ∧ r o = true
  · simp [h]
  · have h' : o ≠ "" → r o = false := fun hn => by simpa using fun hr => h ⟨hn, hr⟩
    cases e <;> cases i <;> cases b <;> simp_all [Option.filter] <;> grind

end Verif.Props

import Verif.Model.RuntimeDir
import Mathlib.Data.List.Induction
/-
C357, C358: where the compiler looks for the runtime.
-/
namespace Verif.Props
open Verif.RuntimeDir

namespace Rd

/-- The name of a directory below the root by its parts -/
def name (cs : List Path) : Path := cs.flatMap ('/' :: ·)

/-- The parts have no slash and are not empty. -/
def Plain (cs : List Path) : Prop := ∀ c ∈ cs, '/' ∉ c ∧ c ≠ []

theorem before_part {d c : Path} (hc : '/' ∉ c) : beforeSlash (d ++ '/' :: c) = some d := by
  have h : (d ++ '/' :: c).reverse.dropWhile (· != '/') = '/' :: d.reverse := by
    rw [List.reverse_append, List.reverse_cons, List.append_assoc, List.dropWhile_append_of_pos]
    · rfl
    · intro a ha
      have : a ≠ '/' := fun e => hc (e ▸ List.mem_reverse.1 ha)
      simpa using this
  unfold beforeSlash
  rw [h]
  simp

theorem name_snoc (cs : List Path) (c : Path) : name (cs ++ [c]) = name cs ++ '/' :: c := by simp [name]

theorem name_nil {cs : List Path} : name cs = [] ↔ cs = [] := by cases cs <;> simp [name]

/-- A directory with the sources -/
def Project (readable : Path → Bool) (cs : List Path) : Prop := readable (name cs ++ "/grayc/src/runtime/runtime.h".toList) = true

theorem walk_snoc (r : Path → Bool) (cs : List Path) (c : Path) (hc : '/' ∉ c) :
    walk r (name (cs ++ [c])) =
      if r (name (cs ++ [c]) ++ "/grayc/src/runtime/runtime.h".toList) = true then some (name (cs ++ [c]) ++ "/grayc/src".toList)
      else walk r (name cs) := by
  have hn : name (cs ++ [c]) ≠ [] := fun e => by simpa using name_nil.1 e
  rw [walk, if_neg hn]
  split
  · rfl
  · have hb : beforeSlash (name (cs ++ [c])) = some (name cs) := by rw [name_snoc]; exact before_part hc
    split
    · next h => rw [hb] at h; cases h
    · next h =>
      rw [hb] at h
      rw [Option.some.inj h, walk, if_pos rfl]
    · next c' d h =>
      rw [hb] at h
      rw [Option.some.inj h]

theorem walk_none (r : Path → Bool) : walk r (name []) = none := by
  show walk r [] = none
  rw [walk, if_pos rfl]

end Rd

open Rd

/-- C357: the walk up from the working directory finds the sources in the nearest directory that has them, up to the root. -/
def C357_statement : Prop :=
  ∀ r cs, Plain cs → cs ≠ [] → (∃ pre, pre <+: cs ∧ Project r pre) → walk r (name cs) ≠ none

/-- Sources in `/grayc/src` are not found from `/a`. -/
theorem C357_witness :
    walk (fun p => p == "/grayc/src/runtime/runtime.h".toList) (name [['a']]) = none := by
  have := walk_snoc (fun p => p == "/grayc/src/runtime/runtime.h".toList) [] ['a'] (by decide)
  rw [List.nil_append] at this
  rw [this, walk_none, if_neg (by decide)]

theorem C357_fails : ¬ C357_statement := fun h =>
  h (fun p => p == "/grayc/src/runtime/runtime.h".toList) [['a']] (by unfold Plain; decide) (by decide) ⟨[], List.nil_prefix, by unfold Project; decide⟩ C357_witness

/-- It finds exactly the nearest one below the root.  Missing: the root itself. -/
theorem C357_partial (r : Path → Bool) (cs : List Path) (hp : Plain cs) (d : Path) :
    walk r (name cs) = some d ↔
      ∃ pre, pre <+: cs ∧ pre ≠ [] ∧ Project r pre ∧ d = name pre ++ "/grayc/src".toList ∧
        ∀ q, q <+: cs → pre.length < q.length → ¬ Project r q := by
  induction cs using List.reverseRecOn generalizing d with
  | nil =>
    rw [walk_none]
    refine ⟨nofun, ?_⟩
    rintro ⟨pre, h1, h2, _⟩
    exact absurd (List.prefix_nil.1 h1) h2
  | append_singleton cs c ih =>
    rw [walk_snoc r cs c (hp c (by simp)).1]
    by_cases hr : r (name (cs ++ [c]) ++ "/grayc/src/runtime/runtime.h".toList) = true
    · rw [if_pos hr]
      constructor
      · intro h
        refine ⟨cs ++ [c], List.prefix_rfl, by simp, hr, (Option.some.inj h).symm, fun q h1 h2 => ?_⟩
        exact absurd h1.length_le (by omega)
      · rintro ⟨pre, h1, h2, h3, rfl, h5⟩
        have hl : pre.length = (cs ++ [c]).length := by
          have := h1.length_le
          rcases Nat.lt_or_ge pre.length (cs ++ [c]).length with hn | hn
          · exact absurd hr (h5 _ List.prefix_rfl hn)
          · omega
        rw [h1.eq_of_length hl]
    · rw [if_neg hr, ih (fun x hx => hp x (by simp [hx]))]
      constructor
      · rintro ⟨pre, h1, h2, h3, h4, h5⟩
        refine ⟨pre, h1.trans (List.prefix_append _ _), h2, h3, h4, fun q g1 g2 => ?_⟩
        rcases List.prefix_concat_iff.1 (by simpa using g1) with e | g
        · rw [e]; simpa [Project] using hr
        · exact h5 q g g2
      · rintro ⟨pre, h1, h2, h3, h4, h5⟩
        rcases List.prefix_concat_iff.1 (by simpa using h1) with e | g
        · rw [e] at h3
          exact absurd (by simpa [Project] using h3) hr
        · exact ⟨pre, g, h2, h3, h4, fun q g1 g2 => h5 q (g1.trans (List.prefix_append _ _)) g2⟩

/-- In the root itself the walk does look there, under a name with two slashes. -/
theorem C357_root (r : Path → Bool) :
    walk r ['/'] = if r "//grayc/src/runtime/runtime.h".toList = true then some "//grayc/src".toList else none := by
  rw [walk, if_neg (by decide)]
  have e : ['/'] ++ "/grayc/src/runtime/runtime.h".toList = "//grayc/src/runtime/runtime.h".toList := by decide
  have e' : ['/'] ++ "/grayc/src".toList = "//grayc/src".toList := by decide
  rw [e, e']
  split
  · rfl
  · have hb : beforeSlash ['/'] = some [] := by decide
    split
    · rfl
    · rfl
    · next h => rw [hb] at h; cases h

example : walk (fun p => p == "/a/grayc/src/runtime/runtime.h".toList) (name [['a'], ['b']]) = some "/a/grayc/src".toList :=
  (C357_partial _ _ (by unfold Plain; decide) _).2
    ⟨[['a']], by decide, by decide, by unfold Project; decide, by decide, fun q h1 h2 => by
      have : q = [['a'], ['b']] := h1.eq_of_length (by have := h1.length_le; simp at h2 this ⊢; omega)
      rw [this]; unfold Project; decide⟩

/-- C358: the directory in `GRAY_RUNTIME` is used if it is set. -/
def C358_statement : Prop := ∀ (w : World) (e : Path), w.env = some e → runtimeDir w = some e

/-- A directory without the header is passed over without a word. -/
theorem C358_witness :
    runtimeDir ⟨fun p => p == "/rt".toList || p == "/usr/local/lib/grayc/runtime/runtime.h".toList, some "/rt".toList, none, none⟩ =
      some "/usr/local/lib/grayc".toList := by decide

theorem C358_fails : ¬ C358_statement := fun h => by
  have := h ⟨fun p => p == "/rt".toList || p == "/usr/local/lib/grayc/runtime/runtime.h".toList, some "/rt".toList, none, none⟩ _ rfl
  rw [C358_witness] at this
  exact absurd this (by decide)

/-- It is used if it and its `runtime/runtime.h` can be read.  Missing: other directories. -/
theorem C358_partial (w : World) (e : Path) (h : w.env = some e) (h1 : w.readable e = true)
    (h2 : w.readable (e ++ "/runtime/runtime.h".toList) = true) : runtimeDir w = some e := by
  have : fromEnv w = some e := by unfold fromEnv; rw [h, Option.filter_some, h1, h2]; rfl
  unfold runtimeDir
  rw [this]

/-- Otherwise the places beside the binary come first, in this order, and the system directory last. -/
theorem C358_order (w : World) (h : w.env = none) :
    (∀ d, w.self = some d → w.readable (d ++ "/../lib/grayc/runtime/runtime.h".toList) = true → runtimeDir w = some (d ++ "/../lib/grayc".toList)) ∧
    (∀ d, w.self = some d → w.readable (d ++ "/../lib/grayc/runtime/runtime.h".toList) = false →
      w.readable (d ++ "/src/runtime/runtime.h".toList) = true → runtimeDir w = some (d ++ "/src".toList)) ∧
    (w.self = none → w.cwd = none → w.readable "/usr/local/lib/grayc/runtime/runtime.h".toList = true →
      runtimeDir w = some "/usr/local/lib/grayc".toList) := by
  have he : fromEnv w = none := by unfold fromEnv; rw [h]; rfl
  refine ⟨fun d hd h1 => ?_, fun d hd h1 h2 => ?_, fun hd hc h1 => ?_⟩
  · have : fromSelf w = some (d ++ "/../lib/grayc".toList) := by
      unfold fromSelf
      rw [hd]
      exact if_pos h1
    unfold runtimeDir
    rw [he, this]
  · have : fromSelf w = some (d ++ "/src".toList) := by
      unfold fromSelf
      rw [hd]
      exact (if_neg (fun e => absurd (h1.symm.trans e) (by decide))).trans (if_pos h2)
    unfold runtimeDir
    rw [he, this]
  · have : fromSelf w = none := by unfold fromSelf; rw [hd]
    unfold runtimeDir
    rw [he, this, hc]
    exact if_pos h1

/-- With a working directory below the root no runtime is found exactly if none of the places has one. -/
theorem C358_none (w : World) (cs : List Path) (hp : Plain cs) (hc : w.cwd = some (name cs)) :
    runtimeDir w = none ↔
      (∀ e, w.env = some e → w.readable e = true → w.readable (e ++ "/runtime/runtime.h".toList) = false) ∧
      (∀ d, w.self = some d → w.readable (d ++ "/../lib/grayc/runtime/runtime.h".toList) = false ∧
        w.readable (d ++ "/src/runtime/runtime.h".toList) = false) ∧
      (∀ pre, pre <+: cs → pre ≠ [] → ¬ Project w.readable pre) ∧
      w.readable "/usr/local/lib/grayc/runtime/runtime.h".toList = false := by
  have hw : ∀ cs, Plain cs → (walk w.readable (name cs) = none ↔ ∀ pre, pre <+: cs → pre ≠ [] → ¬ Project w.readable pre) := by
    intro cs
    induction cs using List.reverseRecOn with
    | nil =>
      intro _
      rw [walk_none]
      exact ⟨fun _ pre h1 h2 => absurd (List.prefix_nil.1 h1) h2, fun _ => rfl⟩
    | append_singleton cs c ih =>
      intro hp
      rw [walk_snoc _ cs c (hp c (by simp)).1]
      by_cases hr : w.readable (name (cs ++ [c]) ++ "/grayc/src/runtime/runtime.h".toList) = true
      · rw [if_pos hr]
        exact ⟨nofun, fun h => absurd hr (h _ List.prefix_rfl (by simp))⟩
      · rw [if_neg hr, ih (fun x hx => hp x (by simp [hx]))]
        constructor
        · intro h pre h1 h2
          rcases List.prefix_concat_iff.1 (by simpa using h1) with e | g
          · rw [e]; simpa [Project] using hr
          · exact h pre g h2
        · exact fun h pre h1 h2 => h pre (h1.trans (List.prefix_append _ _)) h2
  have he : fromEnv w = none ↔ ∀ e, w.env = some e → w.readable e = true → w.readable (e ++ "/runtime/runtime.h".toList) = false := by
    unfold fromEnv
    cases w.env with
    | none => simp
    | some e => simp [Option.filter_some]
  have hf : fromSelf w = none ↔ ∀ d, w.self = some d → w.readable (d ++ "/../lib/grayc/runtime/runtime.h".toList) = false ∧
      w.readable (d ++ "/src/runtime/runtime.h".toList) = false := by
    unfold fromSelf
    cases w.self with
    | none => simp
    | some d =>
      by_cases a : w.readable (d ++ "/../lib/grayc/runtime/runtime.h".toList) = true
      · simp only [a, if_true]
        exact ⟨nofun, fun h => absurd ((h d rfl).1.symm.trans a) (by decide)⟩
      · by_cases b : w.readable (d ++ "/src/runtime/runtime.h".toList) = true
        · simp only [a, b, if_true]
          exact ⟨nofun, fun h => absurd ((h d rfl).2.symm.trans b) (by decide)⟩
        · dsimp only
          rw [if_neg a, if_neg b]
          exact ⟨fun _ d' hd => by cases hd; exact ⟨by simpa using a, by simpa using b⟩, fun _ => rfl⟩
  rw [← he, ← hf, ← hw cs hp]
  unfold runtimeDir
  rw [hc, Option.bind_some]
  generalize w.readable "/usr/local/lib/grayc/runtime/runtime.h".toList = b
  generalize "/usr/local/lib/grayc".toList = x
  cases fromEnv w with
  | some _ => simp
  | none =>
    cases fromSelf w with
    | some _ => simp
    | none =>
      cases walk w.readable (name cs) with
      | some _ => simp
      | none => cases b <;> simp

end Verif.Props

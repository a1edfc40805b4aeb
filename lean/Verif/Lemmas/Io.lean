import Verif.Model.Io

/-
Lemmas about the file system of Model/Io.
-/
namespace Verif.Io
open Verif Verif.Str Verif.Interp

/-- A name a file may have. -/
def GoodName (n : Name) : Prop := n ≠ [] ∧ n ≠ [46] ∧ n ≠ [46, 46] ∧ 47 ∉ n ∧ 0 ∉ n

instance (n : Name) : Decidable (GoodName n) := by unfold GoodName; infer_instance

/-- A file system as an operating system keeps it: a path leads to one thing, names are names, and
what is in a directory is in a directory that exists. -/
structure Sound (fs : FS) : Prop where
  nodup : (fs.map (·.1)).Nodup
  good : ∀ e ∈ fs, e.1 ≠ [] ∧ ∀ n ∈ e.1, GoodName n
  parents : ∀ e ∈ fs, get fs e.1.dropLast = some .dir

namespace Fs

theorem get_nil (fs : FS) : get fs [] = some .dir := rfl

theorem get_mem {fs : FS} {p : Path} {k : Kind} (hp : p ≠ []) (h : get fs p = some k) :
    (p, k) ∈ fs := by
  unfold get at h
  rw [if_neg hp] at h
  cases hf : fs.find? (fun e => decide (e.1 = p)) with
  | none => rw [hf] at h; cases h
  | some e =>
    rw [hf] at h
    simp only [Option.map_some, Option.some.injEq] at h
    have h1 := List.mem_of_find?_eq_some hf
    have h2 := List.find?_some hf
    simp only [decide_eq_true_eq] at h2
    rw [← h2, ← h]; exact h1

theorem get_of_mem {fs : FS} {p : Path} {k : Kind} (hn : (fs.map (·.1)).Nodup) (hp : p ≠ [])
    (h : (p, k) ∈ fs) : get fs p = some k := by
  unfold get
  rw [if_neg hp]
  induction fs with
  | nil => cases h
  | cons e fs ih =>
    rw [List.find?_cons]
    rw [List.map_cons, List.nodup_cons] at hn
    rcases List.mem_cons.mp h with h | h
    · subst h; simp
    · by_cases he : e.1 = p
      · exfalso
        apply hn.1
        rw [he]
        exact List.mem_map.mpr ⟨(p, k), h, rfl⟩
      · simp only [he, decide_false]
        exact ih hn.2 h

theorem get_filter {fs : FS} {P : Path → Bool} {p : Path} (hp : p ≠ []) :
    get (fs.filter fun e => P e.1) p = if P p then get fs p else none := by
  unfold get
  rw [if_neg hp, if_neg hp, List.find?_filter]
  by_cases hP : P p = true
  · rw [if_pos hP]
    congr 2
    funext e
    by_cases he : e.1 = p
    · simp [he, hP]
    · simp [he]
  · rw [if_neg hP]
    have : fs.find? (fun a => decide (P a.1 = true ∧ decide (a.1 = p) = true)) = none := by
      rw [List.find?_eq_none]
      intro e _ h
      simp only [decide_eq_true_eq] at h
      rw [h.2] at h
      exact hP h.1
    rw [this]; rfl

/-- What is in a directory is in a directory. -/
theorem parent {fs : FS} (hs : Sound fs) {p : Path} {n : Name} {k : Kind}
    (h : get fs (p ++ [n]) = some k) : get fs p = some .dir := by
  have := hs.parents _ (get_mem (by simp) h)
  simpa using this

theorem above {fs : FS} (hs : Sound fs) (p r : Path) : ∀ {k : Kind},
    get fs (p ++ r) = some k → r ≠ [] → get fs p = some .dir := by
  induction hn : r.length generalizing r with
  | zero => intro k _ h; exact absurd (List.length_eq_zero_iff.mp hn) h
  | succ m ih =>
    intro k h hr
    rcases List.eq_nil_or_concat r with h' | ⟨r', n, h'⟩
    · exact absurd h' hr
    · subst h'
      rw [List.concat_eq_append] at h hn
      have h2 := parent hs (p := p ++ r') (n := n) (by rw [List.append_assoc]; exact h)
      by_cases h3 : r' = []
      · rw [h3, List.append_nil] at h2; exact h2
      · exact ih r' (by simp at hn; exact hn) h2 h3

theorem good_of_get {fs : FS} (hs : Sound fs) {p : Path} {k : Kind} (h : get fs p = some k) :
    ∀ n ∈ p, GoodName n := by
  intro n hn
  have hp : p ≠ [] := by rintro rfl; cases hn
  exact (hs.good _ (get_mem hp h)).2 n hn

/-! ### Paths as text -/

theorem split_nil (s : Str) : splitAt 47 s ≠ [] := by
  cases s with
  | nil => simp [splitAt]
  | cons b r =>
    rw [splitAt]
    split
    · simp
    · split <;> simp

theorem split_clean : ∀ (n : Str), 47 ∉ n → splitAt 47 n = [n]
  | [], _ => rfl
  | b :: r, h => by
    have h1 : b ≠ 47 := fun e => h (by rw [e]; exact List.mem_cons_self)
    rw [splitAt, if_neg h1, split_clean r (fun hr => h (List.mem_cons_of_mem _ hr))]

theorem split_app (n : Str) (hn : 47 ∉ n) : ∀ (p : Str),
    splitAt 47 (p ++ 47 :: n) = splitAt 47 p ++ [n]
  | [] => by
    have key : splitAt 47 (47 :: n) = [] :: splitAt 47 n := by rw [splitAt]; exact if_pos rfl
    rw [List.nil_append, key, split_clean n hn]; rfl
  | b :: p => by
    rw [List.cons_append, splitAt, splitAt, split_app n hn p]
    by_cases hb : b = 47
    · rw [if_pos hb, if_pos hb]; rfl
    · rw [if_neg hb, if_neg hb]
      cases hs : splitAt 47 p with
      | nil => exact absurd hs (split_nil p)
      | cons h t => rfl

theorem comps_app {p : Str} {n : Name} (hn : GoodName n) : comps (p ++ 47 :: n) = comps p ++ [n] := by
  unfold comps
  rw [split_app n hn.2.2.2.1, List.filter_append]
  have h1 : (decide (n ≠ [] ∧ n ≠ [46])) = true := decide_eq_true ⟨hn.1, hn.2.1⟩
  rw [List.filter_cons, if_pos h1]; rfl

theorem cstr_eq {p : Str} (h : 0 ∉ p) : cstr p = p := by
  unfold cstr
  induction p with
  | nil => rfl
  | cons c p ih =>
    have h1 : (c != 0) = true := by
      have : c ≠ 0 := fun e => h (by rw [e]; exact List.mem_cons_self)
      simpa using this
    rw [List.takeWhile_cons, if_pos h1, ih (fun hr => h (List.mem_cons_of_mem _ hr))]

/-! ### Resolving -/

theorem follow_plain {fs : FS} (hs : Sound fs) (next : Path → Path → Option Path) (last : Bool)
    {k : Kind} : ∀ (q acc : Path), get fs (acc ++ q) = some k → (∀ n ∈ q, GoodName n) →
    (last = false ∨ ∀ t, k ≠ .link t) → follow fs next last acc q = some (acc ++ q)
  | [], acc, _, _, _ => by simp [follow]
  | n :: q, acc, h, hg, hk => by
    have hd := above hs acc (n :: q) h (by simp)
    rw [follow, if_pos hd, if_neg (hg n (by simp)).2.2.1]
    have e : acc ++ n :: q = (acc ++ [n]) ++ q := by simp
    by_cases hq : q = []
    · subst hq
      rw [h]
      cases k with
      | link t =>
        rcases hk with hk | hk
        · simp [hk]
        · exact absurd rfl (hk t)
      | dir => simp [follow]
      | file d => simp [follow]
    · rw [e] at h ⊢
      have hd2 := above hs (acc ++ [n]) q h hq
      rw [hd2]
      exact follow_plain hs next last q (acc ++ [n]) h
        (fun m hm => hg m (List.mem_cons_of_mem _ hm)) hk

theorem followMax_plain {fs : FS} (hs : Sound fs) (last : Bool) {k : Kind} (n : Nat) (q : Path)
    (h : get fs q = some k) (hk : last = false ∨ ∀ t, k ≠ .link t) :
    followMax fs last n [] q = some q := by
  have hg := good_of_get hs h
  cases n with
  | zero => rw [followMax]; exact follow_plain hs _ last q [] h hg hk
  | succ n => rw [followMax]; exact follow_plain hs _ last q [] h hg hk

/-- A path leads where its names lead, if no symbolic link is on the way. -/
theorem canon_plain {fs : FS} (hs : Sound fs) (last : Bool) {p : Str} {q : Path} {k : Kind}
    (hp : 0 ∉ p) (hne : p ≠ []) (hl : p.length < pathMax) (hc : comps p = q)
    (h : get fs q = some k) (hk : last = false ∨ ∀ t, k ≠ .link t) : canon fs last p = some q := by
  unfold canon
  rw [cstr_eq hp, if_neg (fun c => c.elim hne (by omega)), hc]
  exact followMax_plain hs last _ q h hk

theorem stat_plain {fs : FS} (hs : Sound fs) {p : Str} {q : Path} {k : Kind}
    (hp : 0 ∉ p) (hne : p ≠ []) (hl : p.length < pathMax) (hc : comps p = q)
    (h : get fs q = some k) (hk : ∀ t, k ≠ .link t) : stat fs p = some k := by
  unfold stat
  rw [canon_plain hs true hp hne hl hc h (Or.inr hk)]
  exact h

/-- The last name need not exist. -/
theorem follow_new {fs : FS} (hs : Sound fs) (next : Path → Path → Option Path) (last : Bool)
    (n : Name) (hn : GoodName n) : ∀ (q acc : Path), get fs (acc ++ q) = some .dir →
    (∀ n ∈ q, GoodName n) → get fs (acc ++ q ++ [n]) = none →
    follow fs next last acc (q ++ [n]) = some (acc ++ q ++ [n])
  | [], acc, h, _, h0 => by
    rw [List.append_nil] at h h0 ⊢
    rw [List.nil_append, follow, if_pos h, if_neg hn.2.2.1, h0]
    simp
  | m :: q, acc, h, hg, h0 => by
    have hd := above hs acc (m :: q) h (by simp)
    rw [List.cons_append, follow, if_pos hd, if_neg (hg m (by simp)).2.2.1]
    have e : acc ++ m :: q = (acc ++ [m]) ++ q := by simp
    rw [e] at h h0 ⊢
    have hd2 : get fs (acc ++ [m]) = some .dir := by
      by_cases hq : q = []
      · rw [hq, List.append_nil] at h; exact h
      · exact above hs (acc ++ [m]) q h hq
    rw [hd2]
    exact follow_new hs next last n hn q (acc ++ [m]) h
      (fun m hm => hg m (List.mem_cons_of_mem _ hm)) h0

theorem canon_new {fs : FS} (hs : Sound fs) (last : Bool) {p : Str} {q : Path} {n : Name}
    (hp : 0 ∉ p) (hne : p ≠ []) (hl : p.length < pathMax) (hc : comps p = q ++ [n])
    (hn : GoodName n) (h : get fs q = some .dir) (h0 : get fs (q ++ [n]) = none) :
    canon fs last p = some (q ++ [n]) := by
  unfold canon
  rw [cstr_eq hp, if_neg (fun c => c.elim hne (by omega)), hc]
  have hg := good_of_get hs h
  rw [maxLinks, followMax]
  exact follow_new hs _ last n hn q [] h hg h0

/-! ### Directories -/

theorem childOf_some {d p : Path} {n : Name} : childOf d p = some n ↔ p = d ++ [n] := by
  unfold childOf
  constructor
  · intro h
    by_cases c : p ≠ [] ∧ p.dropLast = d
    · rw [if_pos c] at h
      rcases List.eq_nil_or_concat p with h' | ⟨r', m, h'⟩
      · exact absurd h' c.1
      · subst h'
        rw [List.concat_eq_append] at h c ⊢
        rw [List.getLast?_concat] at h
        rw [List.dropLast_concat] at c
        rw [c.2]
        cases h; rfl
    · rw [if_neg c] at h; cases h
  · rintro rfl
    rw [if_pos ⟨by simp, by simp⟩]
    simp

theorem mem_names {fs : FS} {d : Path} {n : Name} :
    n ∈ names fs d ↔ get fs (d ++ [n]) ≠ none := by
  unfold names
  rw [List.mem_filterMap]
  constructor
  · rintro ⟨e, he, h⟩
    rw [childOf_some] at h
    unfold get
    rw [if_neg (by simp)]
    simp only [ne_eq, Option.map_eq_none_iff, List.find?_eq_none]
    intro hx
    exact hx e he (by simpa using h)
  · intro h
    cases hg : get fs (d ++ [n]) with
    | none => exact absurd hg h
    | some k => exact ⟨_, get_mem (by simp) hg, childOf_some.mpr rfl⟩

theorem nodup_names {fs : FS} (hn : (fs.map (·.1)).Nodup) (d : Path) : (names fs d).Nodup := by
  unfold names
  rw [show (fs.filterMap fun e => childOf d e.1) = (fs.map (·.1)).filterMap (childOf d) from by
    rw [List.filterMap_map]; rfl]
  refine List.Pairwise.filterMap _ ?_ hn
  intro a b hab x hx y hy hxy
  rw [childOf_some] at hx hy
  exact hab (by rw [hx, hy, hxy])

theorem list_plain {fs : FS} (hs : Sound fs) {p : Str} {q : Path}
    (hp : 0 ∉ p) (hne : p ≠ []) (hl : p.length < pathMax) (hc : comps p = q)
    (h : get fs q = some .dir) : list fs p = some (names fs q) := by
  unfold list
  rw [canon_plain hs true hp hne hl hc h (Or.inr (by intro t ht; cases ht))]
  simp only [h, if_true]

theorem filter_sound {fs : FS} (hs : Sound fs) (P : Path → Bool)
    (hP : ∀ p n, get fs (p ++ [n]) ≠ none → P (p ++ [n]) = true → p = [] ∨ P p = true) :
    Sound (fs.filter fun e => P e.1) := by
  refine ⟨?_, ?_, ?_⟩
  · exact (hs.nodup.sublist (List.Sublist.map _ (List.filter_sublist (l := fs))))
  · intro e he
    exact hs.good e (List.mem_filter.mp he).1
  · intro e he
    obtain ⟨h1, h2⟩ := List.mem_filter.mp he
    have h3 := hs.parents e h1
    rcases List.eq_nil_or_concat e.1 with h' | ⟨r', m, h'⟩
    · exact absurd h' (hs.good e h1).1
    · rw [List.concat_eq_append] at h'
      rw [h', List.dropLast_concat] at h3 ⊢
      rw [h'] at h2
      by_cases hr : r' = []
      · rw [hr]; rfl
      · have h4 : get fs (r' ++ [m]) ≠ none := by
          rw [← h', get_of_mem hs.nodup (hs.good e h1).1 h1]; simp
        rw [get_filter hr, if_pos ((hP r' m h4 h2).resolve_left hr)]
        exact h3

theorem get_erase {fs : FS} {q r : Path} (hr : r ≠ []) :
    get (erase fs q) r = if r = q then none else get fs r := by
  unfold erase
  rw [get_filter (P := fun p => decide (p ≠ q)) hr]
  by_cases h : r = q <;> simp [h]

theorem erase_sound {fs : FS} (hs : Sound fs) {q : Path} (h : names fs q = []) :
    Sound (erase fs q) := by
  unfold erase
  refine filter_sound hs (fun p => decide (p ≠ q)) ?_
  intro p n hg _
  right
  simp only [ne_eq, decide_eq_true_eq]
  rintro rfl
  have := mem_names.mpr hg
  rw [h] at this
  cases this

theorem names_of_not_dir {fs : FS} (hs : Sound fs) {q : Path} (h : get fs q ≠ some .dir) :
    names fs q = [] := by
  cases hn : names fs q with
  | nil => rfl
  | cons n ns =>
    have hm : n ∈ names fs q := by rw [hn]; exact List.mem_cons_self
    rw [mem_names] at hm
    cases hg : get fs (q ++ [n]) with
    | none => exact absurd hg hm
    | some k => exact absurd (parent hs hg) h

theorem unlink_some {fs fs' : FS} {p : Str} (h : unlink fs p = some fs') :
    ∃ q, canon fs false p = some q ∧ get fs q ≠ some .dir ∧ get fs q ≠ none ∧ fs' = erase fs q := by
  unfold unlink at h
  cases hc : canon fs false p with
  | none => rw [hc] at h; cases h
  | some q =>
    rw [hc] at h
    refine ⟨q, rfl, ?_⟩
    cases hg : get fs q with
    | none => simp only [hg] at h; cases h
    | some k =>
      simp only [hg] at h
      cases k with
      | dir => cases h
      | file d => exact ⟨by simp, by simp, by cases h; rfl⟩
      | link t => exact ⟨by simp, by simp, by cases h; rfl⟩

theorem rmdir_some {fs fs' : FS} {p : Str} (h : rmdir fs p = some fs') :
    ∃ q, canon fs false p = some q ∧ q ≠ [] ∧ get fs q = some .dir ∧ names fs q = [] ∧
      fs' = erase fs q := by
  unfold rmdir at h
  cases hc : canon fs false p with
  | none => rw [hc] at h; cases h
  | some q =>
    rw [hc] at h
    simp only at h
    by_cases c : q ≠ [] ∧ get fs q = some .dir ∧ names fs q = []
    · rw [if_pos c] at h
      cases h
      exact ⟨q, rfl, c.1, c.2.1, c.2.2, rfl⟩
    · rw [if_neg c] at h; cases h

end Fs
end Verif.Io

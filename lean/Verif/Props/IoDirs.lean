import Verif.Lemmas.Io

/-
C213, C214: removing and walking directories.
-/
namespace Verif.Props
open Verif Verif.Str Verif.Interp Verif.Io Verif.Io.Fs

namespace Dirs

/-- The bytes the names of a path take in a text, each with its separator. -/
def textLen (r : Path) : Nat := (r.map fun n => n.length + 1).sum

/-- A directory whose files can all be named: no more levels than there are file descriptors, and no
path too long for the system. -/
def Fits (fds : Nat) (fs : FS) (p : Str) : Prop :=
  ∀ r, get fs (comps p ++ r) ≠ none → r.length < fds ∧ p.length + textLen r < pathMax

/-- There are no symbolic links in a directory and the directories below. -/
def NoLinks (fs : FS) (q : Path) : Prop := ∀ r t, get fs (q ++ r) ≠ some (.link t)

/-- A path a program may give. -/
def Plain (p : Str) : Prop := 0 ∉ p ∧ p ≠ []

instance (p : Str) : Decidable (Plain p) := by unfold Plain; infer_instance

theorem child_eq {p : Str} {n : Name} (h : p.length + (n.length + 1) < pathMax) :
    childPath p n = p ++ 47 :: n := by
  unfold childPath
  rw [List.take_of_length_le]
  rw [pathBuf, List.length_append, List.length_cons]
  rw [pathMax] at h
  omega

theorem textLen_cons (n : Name) (r : Path) : textLen (n :: r) = n.length + 1 + textLen r := rfl

theorem prefix_iff {q r : Path} {n : Name} : q ++ [n] <+: r ↔ ∃ s, r = q ++ n :: s := by
  constructor
  · rintro ⟨s, h⟩; exact ⟨s, by rw [← h]; simp⟩
  · rintro ⟨s, h⟩; exact ⟨s, by rw [h]; simp⟩

/-- What is left when some of the entries of a directory are gone, with what is below them. -/
def rest (fs : FS) (q : Path) (ns : List Name) : FS :=
  fs.filter fun e => decide (¬ ∃ n ∈ ns, q ++ [n] <+: e.1)

theorem get_rest {fs : FS} {q : Path} {ns : List Name} {r : Path} (hr : r ≠ []) :
    get (rest fs q ns) r = if ∃ n ∈ ns, q ++ [n] <+: r then none else get fs r := by
  unfold rest
  rw [get_filter (P := fun p => decide (¬ ∃ n ∈ ns, q ++ [n] <+: p)) hr]
  by_cases h : ∃ n ∈ ns, q ++ [n] <+: r <;> simp [h]

theorem rest_sound {fs : FS} (hs : Sound fs) (q : Path) (ns : List Name) : Sound (rest fs q ns) := by
  unfold rest
  refine filter_sound hs (fun p => decide (¬ ∃ n ∈ ns, q ++ [n] <+: p)) ?_
  intro p n _ h
  right
  simp only [decide_eq_true_eq] at h ⊢
  rintro ⟨m, hm, hp⟩
  exact h ⟨m, hm, hp.trans (List.prefix_append _ _)⟩

theorem rest_rest (fs : FS) (q : Path) (n : Name) (ns : List Name) :
    rest (rest fs q [n]) q ns = rest fs q (n :: ns) := by
  unfold rest
  rw [List.filter_filter]
  congr 1
  funext e
  rw [Bool.eq_iff_iff]
  simp only [Bool.and_eq_true, decide_eq_true_eq, List.mem_cons, List.not_mem_nil, or_false]
  constructor
  · rintro ⟨h1, h2⟩ ⟨m, hm | hm, h⟩
    · exact h2 ⟨m, hm, h⟩
    · exact h1 ⟨m, hm, h⟩
  · intro h
    exact ⟨fun ⟨m, hm, h'⟩ => h ⟨m, Or.inr hm, h'⟩, fun ⟨m, hm, h'⟩ => h ⟨m, Or.inl hm, h'⟩⟩

theorem rest_nil (fs : FS) (q : Path) : rest fs q [] = fs := by
  unfold rest
  rw [List.filter_eq_self]
  intro e _
  simp

theorem get_rest_ne {fs : FS} {q : Path} {ns : List Name} {r : Path}
    (h : get (rest fs q ns) r ≠ none) : get fs r ≠ none := by
  by_cases hr : r = []
  · rw [hr, get_nil]; simp
  · rw [get_rest hr] at h
    by_cases c : ∃ n ∈ ns, q ++ [n] <+: r
    · rw [if_pos c] at h; exact absurd rfl h
    · rw [if_neg c] at h; exact h

theorem get_rest_self {fs : FS} {q : Path} {ns : List Name} : get (rest fs q ns) q = get fs q := by
  by_cases hr : q = []
  · rw [hr]; rfl
  · rw [get_rest hr, if_neg]
    rintro ⟨n, _, h⟩
    have := h.length_le
    simp at this
    omega

theorem rest_fits {fds : Nat} {fs : FS} {p : Str} {ns : List Name} (h : Fits fds fs p) :
    Fits fds (rest fs (comps p) ns) p := fun r hr => h r (get_rest_ne hr)

theorem rest_links {fs : FS} {q : Path} {ns : List Name} (h : NoLinks fs q) :
    NoLinks (rest fs q ns) q := by
  intro r t hr
  have h1 : get fs (q ++ r) ≠ none := get_rest_ne (q := q) (ns := ns) (by rw [hr]; simp)
  by_cases hn : q ++ r = []
  · rw [hn] at hr; cases hr
  · rw [get_rest hn] at hr
    by_cases c : ∃ n ∈ ns, q ++ [n] <+: q ++ r
    · rw [if_pos c] at hr; cases hr
    · rw [if_neg c] at hr; exact h r t hr

/-- What is left without a directory and what is below it. -/
def out (fs : FS) (q : Path) : FS := fs.filter fun e => decide (¬ q <+: e.1)

theorem out_child (fs : FS) (q : Path) (n : Name) : out fs (q ++ [n]) = rest fs q [n] := by
  unfold out rest
  congr 1
  funext e
  simp

theorem erase_child {fs : FS} (hs : Sound fs) {q : Path} (h : get fs q ≠ some .dir) :
    erase fs q = out fs q := by
  unfold erase out
  apply List.filter_congr
  intro e he
  by_cases hq : e.1 = q
  · rw [hq]; simp
  · have : ¬ q <+: e.1 := by
      rintro ⟨s, hs'⟩
      refine h (above hs q s (k := e.2) ?_ (fun c => hq ?_))
      · rw [hs']; exact get_of_mem hs.nodup (hs.good e he).1 he
      · rw [← hs', c, List.append_nil]
    simp [hq, this]

theorem out_rest {fs : FS} (hs : Sound fs) (q : Path) :
    erase (rest fs q (names fs q)) q = out fs q := by
  unfold erase rest out
  rw [List.filter_filter]
  apply List.filter_congr
  intro e he
  have hm := get_of_mem hs.nodup (hs.good e he).1 he
  rw [Bool.eq_iff_iff]
  simp only [Bool.and_eq_true, decide_eq_true_eq]
  constructor
  · rintro ⟨h1, h2⟩ ⟨s, hp⟩
    cases s with
    | nil => rw [List.append_nil] at hp; exact h1 hp.symm
    | cons n s =>
      refine h2 ⟨n, mem_names.mpr ?_, s, by rw [← hp]; simp⟩
      rw [← hp] at hm
      by_cases hs' : s = []
      · subst hs'; rw [hm]; simp
      · have e2 : q ++ n :: s = (q ++ [n]) ++ s := by simp
        rw [e2] at hm
        rw [above hs _ s hm hs']; simp
  · intro h
    refine ⟨fun c => h (by rw [c]; exact List.prefix_rfl), ?_⟩
    rintro ⟨n, _, hp⟩
    exact h ((List.prefix_append q [n]).trans hp)

theorem remove_loop {fds : Nat}
    (ih : ∀ fs p, Sound fs → Plain p → comps p ≠ [] → get fs (comps p) = some .dir →
      NoLinks fs (comps p) → Fits fds fs p → removeRec fds fs p = (true, out fs (comps p)))
    (p : Str) (hp : Plain p) : ∀ (ns : List Name) (fs : FS), Sound fs →
    get fs (comps p) = some .dir → NoLinks fs (comps p) → Fits (fds + 1) fs p → ns.Nodup →
    (∀ n ∈ ns, get fs (comps p ++ [n]) ≠ none) →
    removeLoop (removeRec fds) p ns true fs = (true, rest fs (comps p) ns)
  | [], fs, _, _, _, _, _, _ => by rw [removeLoop, rest_nil]
  | n :: ns, fs, hs, hd, hl, hf, hnd, hm => by
    have hn0 := hm n List.mem_cons_self
    cases hk : get fs (comps p ++ [n]) with
    | none => exact absurd hk hn0
    | some k =>
      have hlen := (hf [n] hn0).2
      have hlen1 : p.length + (n.length + 1) < pathMax := by
        have : textLen [n] = n.length + 1 := rfl
        omega
      have hgood : GoodName n := good_of_get hs hk n (by simp)
      have hc : comps (p ++ 47 :: n) = comps p ++ [n] := comps_app hgood
      have hp' : Plain (p ++ 47 :: n) := by
        refine ⟨?_, by simp⟩
        intro h
        rcases List.mem_append.mp h with h | h
        · exact hp.1 h
        · rcases List.mem_cons.mp h with h | h
          · exact absurd h (by decide)
          · exact hgood.2.2.2.2 h
      have hl' : (p ++ 47 :: n).length < pathMax := by
        rw [List.length_append, List.length_cons]; exact hlen1
      have hkl : ∀ t, k ≠ .link t := by
        rintro t rfl
        exact hl [n] t hk
      have hstat := stat_plain hs hp'.1 hp'.2 hl' hc hk hkl
      have hout : out fs (comps p ++ [n]) = rest fs (comps p) [n] := out_child fs (comps p) n
      have hnext := remove_loop ih p hp ns (rest fs (comps p) [n]) (rest_sound hs _ _)
        (by rw [get_rest_self]; exact hd) (rest_links hl) (rest_fits hf)
        (List.nodup_cons.mp hnd).2 (by
          intro m hmm
          rw [get_rest (by simp), if_neg]
          · exact hm m (List.mem_cons_of_mem _ hmm)
          · rintro ⟨n', hn', hpre⟩
            rw [List.mem_singleton] at hn'
            obtain ⟨s, hs'⟩ := prefix_iff.mp hpre
            have := List.append_cancel_left hs'
            rw [List.cons.injEq] at this
            rw [this.1, hn'] at hmm
            exact (List.nodup_cons.mp hnd).1 hmm)
      rw [rest_rest] at hnext
      rw [removeLoop]
      simp only [child_eq hlen1, hstat]
      cases k with
      | dir =>
        have hrec := ih fs (p ++ 47 :: n) hs hp' (by rw [hc]; simp) (by rw [hc]; exact hk)
          (by
            intro r t hr
            rw [hc, List.append_assoc] at hr
            exact hl _ t hr)
          (by
            intro r hr
            rw [hc, List.append_assoc] at hr
            have := hf _ hr
            rw [List.singleton_append, textLen_cons] at this
            rw [List.length_append, List.length_cons]
            simp at this
            refine ⟨by omega, by omega⟩)
        simp only [hrec, hc, hout]
        exact hnext
      | link t => exact absurd rfl (hkl t)
      | file d =>
        have hu : unlink fs (p ++ 47 :: n) = some (rest fs (comps p) [n]) := by
          unfold unlink
          rw [canon_plain hs false hp'.1 hp'.2 hl' hc hk (Or.inl rfl)]
          simp only [hk]
          rw [erase_child hs (by rw [hk]; simp), hout]
        simp only [hu]
        exact hnext

theorem remove_rec : ∀ (fds : Nat) (fs : FS) (p : Str), Sound fs → Plain p → comps p ≠ [] →
    get fs (comps p) = some .dir → NoLinks fs (comps p) → Fits fds fs p →
    removeRec fds fs p = (true, out fs (comps p))
  | 0, fs, p, _, _, _, hd, _, hf => by
    have := (hf [] (by rw [List.append_nil, hd]; simp)).1
    simp at this
  | fds + 1, fs, p, hs, hp, hne, hd, hl, hf => by
    have hlen := (hf [] (by rw [List.append_nil, hd]; simp)).2
    have hlen' : p.length < pathMax := by omega
    rw [removeRec, list_plain hs hp.1 hp.2 hlen' rfl hd]
    simp only
    rw [remove_loop (remove_rec fds) p hp (names fs (comps p)) fs hs hd hl hf
      (nodup_names hs.nodup _) (fun n hn => mem_names.mp hn)]
    simp only
    have hs' := rest_sound hs (comps p) (names fs (comps p))
    have hd' : get (rest fs (comps p) (names fs (comps p))) (comps p) = some .dir := by
      rw [get_rest_self]; exact hd
    have hn' : names (rest fs (comps p) (names fs (comps p))) (comps p) = [] := by
      cases hx : names (rest fs (comps p) (names fs (comps p))) (comps p) with
      | nil => rfl
      | cons n ns =>
        have hm : n ∈ names (rest fs (comps p) (names fs (comps p))) (comps p) := by
          rw [hx]; exact List.mem_cons_self
        have h1 := mem_names.mp hm
        have h2 := mem_names.mpr (get_rest_ne h1)
        rw [get_rest (by simp), if_pos ⟨n, h2, List.prefix_rfl⟩] at h1
        exact absurd rfl h1
    have hr : rmdir (rest fs (comps p) (names fs (comps p))) p = some (out fs (comps p)) := by
      unfold rmdir
      rw [canon_plain hs' false hp.1 hp.2 hlen' rfl hd' (Or.inl rfl)]
      simp only
      rw [if_pos ⟨hne, hd', hn'⟩, out_rest hs]
    rw [hr]

/-! ### Removing only removes -/

/-- One file system has come from another by taking things away. -/
def Less (fs fs' : FS) : Prop := Sound fs' ∧ ∀ r, get fs' r = get fs r ∨ get fs' r = none

theorem less_refl {fs : FS} (hs : Sound fs) : Less fs fs := ⟨hs, fun _ => Or.inl rfl⟩

theorem less_trans {a b c : FS} (h1 : Less a b) (h2 : Less b c) : Less a c :=
  ⟨h2.1, fun r => (h2.2 r).elim (fun e => e ▸ h1.2 r) Or.inr⟩

theorem less_erase {fs : FS} (hs : Sound fs) {q : Path} (h : names fs q = []) :
    Less fs (erase fs q) := by
  refine ⟨erase_sound hs h, ?_⟩
  intro r
  by_cases hr : r = []
  · left; rw [hr]; rfl
  · rw [get_erase hr]
    by_cases c : r = q
    · right; rw [if_pos c]
    · left; rw [if_neg c]

theorem less_unlink {fs fs' : FS} (hs : Sound fs) {p : Str} (h : unlink fs p = some fs') :
    Less fs fs' := by
  obtain ⟨q, _, h1, _, rfl⟩ := unlink_some h
  exact less_erase hs (names_of_not_dir hs h1)

theorem less_rmdir {fs fs' : FS} (hs : Sound fs) {p : Str} (h : rmdir fs p = some fs') :
    Less fs fs' := by
  obtain ⟨q, _, _, _, h1, rfl⟩ := rmdir_some h
  exact less_erase hs h1

theorem less_loop {rec : FS → Str → Bool × FS} (hrec : ∀ fs p, Sound fs → Less fs (rec fs p).2)
    (p : Str) : ∀ (ns : List Name) (ok : Bool) (fs : FS), Sound fs →
    Less fs (removeLoop rec p ns ok fs).2
  | [], _, fs, hs => less_refl hs
  | n :: ns, ok, fs, hs => by
    rw [removeLoop]
    simp only
    cases stat fs (childPath p n) with
    | none => exact less_loop hrec p ns _ fs hs
    | some k =>
      have key : Less fs (match unlink fs (childPath p n) with
          | some fs' => removeLoop rec p ns ok fs'
          | none => removeLoop rec p ns false fs).2 := by
        cases hu : unlink fs (childPath p n) with
        | none => exact less_loop hrec p ns _ fs hs
        | some fs' =>
          have h1 := less_unlink hs hu
          exact less_trans h1 (less_loop hrec p ns _ fs' h1.1)
      cases k with
      | dir =>
        have h1 := hrec fs (childPath p n) hs
        exact less_trans h1 (less_loop hrec p ns _ _ h1.1)
      | file d => exact key
      | link t => exact key

theorem less_rec : ∀ (fds : Nat) (fs : FS) (p : Str), Sound fs → Less fs (removeRec fds fs p).2
  | 0, fs, _, hs => less_refl hs
  | fds + 1, fs, p, hs => by
    rw [removeRec]
    cases list fs p with
    | none => exact less_refl hs
    | some ns =>
      have h1 := less_loop (less_rec fds) p ns true fs hs
      simp only
      cases hr : rmdir (removeLoop (removeRec fds) p ns true fs).2 p with
      | none => exact h1
      | some fs'' => exact less_trans h1 (less_rmdir h1.1 hr)

/-- Nothing is below what does not exist. -/
theorem none_below {fs : FS} (hs : Sound fs) {q r : Path} (h : get fs q = none) (hp : q <+: r) :
    get fs r = none := by
  obtain ⟨s, rfl⟩ := hp
  cases hg : get fs (q ++ s) with
  | none => rfl
  | some k =>
    by_cases c : s = []
    · rw [c, List.append_nil, h] at hg; cases hg
    · rw [above hs q s hg c] at h; cases h

/-- If the names of a path do not exist without following links, the path does not lead to what is
at those names. -/
theorem rmdir_gone {fs fs' : FS} (hs : Sound fs) {p : Str} (hp : Plain p)
    (hl : p.length < pathMax) (hg : ∀ t, get fs (comps p) ≠ some (.link t))
    (h : rmdir fs p = some fs') : get fs (comps p) = none ∨ get fs' (comps p) = none := by
  cases hk : get fs (comps p) with
  | none => exact Or.inl rfl
  | some k =>
    right
    obtain ⟨q, h1, h2, h3, h4, rfl⟩ := rmdir_some h
    rw [canon_plain hs false hp.1 hp.2 hl rfl hk (Or.inl rfl)] at h1
    cases h1
    rw [get_erase h2, if_pos rfl]

theorem rec_true {fds : Nat} {fs : FS} {p : Str} (hs : Sound fs) (hp : Plain p)
    (hl : p.length < pathMax) (hd : get fs (comps p) = some .dir)
    (h : (removeRec fds fs p).1 = true) : get (removeRec fds fs p).2 (comps p) = none := by
  cases fds with
  | zero => cases h
  | succ fds =>
    rw [removeRec] at h ⊢
    cases hls : list fs p with
    | none => rw [hls] at h; cases h
    | some ns =>
      rw [hls] at h
      have h1 := less_loop (less_rec fds) p ns true fs hs
      simp only at h ⊢
      cases hr : rmdir (removeLoop (removeRec fds) p ns true fs).2 p with
      | none => rw [hr] at h; cases h
      | some fs'' =>
        simp only
        have hnl : ∀ t, get (removeLoop (removeRec fds) p ns true fs).2 (comps p) ≠
            some (.link t) := by
          intro t ht
          rcases h1.2 (comps p) with h2 | h2
          · rw [ht, hd] at h2; cases h2
          · rw [ht] at h2; cases h2
        rcases rmdir_gone h1.1 hp hl hnl hr with h2 | h2
        · rcases (less_rmdir h1.1 hr).2 (comps p) with h3 | h3
          · rw [h3, h2]
          · exact h3
        · exact h2

end Dirs

open Dirs

/-! ### C213 -/

/-- `io.remove_dir_all` takes away nothing outside of its directory. -/
def C213_statement : Prop :=
  ∀ (fds : Nat) (fs : FS) (p : Str), Sound fs → Plain p → p.length < 4096 →
    get fs (comps p) = some .dir →
    ∀ r, ¬ comps p <+: r → get (removeDirAll fds fs p).2 r = get fs r

namespace Dirs

theorem sound_of {fs : FS} (h1 : (fs.map (·.1)).Nodup)
    (h2 : ∀ e ∈ fs, e.1 ≠ [] ∧ ∀ n ∈ e.1, GoodName n)
    (h3 : ∀ e ∈ fs, get fs e.1.dropLast = some .dir) : Sound fs := ⟨h1, h2, h3⟩

/-- A directory `d` with a symbolic link to the directory `o`, in which there is a file. -/
def linked : FS :=
  [([lit "d"], .dir), ([lit "d", lit "l"], .link (lit "/o")), ([lit "o"], .dir),
   ([lit "o", lit "f"], .file (lit "data"))]

theorem linked_sound : Sound linked :=
  sound_of (by decide +kernel) (by decide +kernel) (by decide +kernel)

end Dirs

/-- The file in the directory the link leads to is gone; the link and both directories are not. -/
theorem C213_witness :
    removeDirAll 100 linked (lit "d") =
      (false, [([lit "d"], .dir), ([lit "d", lit "l"], .link (lit "/o")), ([lit "o"], .dir)]) := by
  decide +kernel

theorem C213_fails : ¬ C213_statement := by
  intro h
  have := h 100 linked (lit "d") linked_sound (by decide +kernel) (by decide +kernel)
    (by decide +kernel) [lit "o", lit "f"] (by decide +kernel)
  rw [C213_witness] at this
  exact absurd this (by decide +kernel)

/-- Without symbolic links below the directory, and if all paths below it can be named, the call
succeeds and exactly the directory and what is below it are gone.  Missing: directories with symbolic
links, for which this is false. -/
theorem C213_partial (fds : Nat) (fs : FS) (p : Str) (hs : Sound fs) (hp : Plain p)
    (hne : comps p ≠ []) (hd : get fs (comps p) = some .dir) (hl : NoLinks fs (comps p))
    (hf : Fits fds fs p) :
    (removeDirAll fds fs p).1 = true ∧
      ∀ r, get (removeDirAll fds fs p).2 r = if comps p <+: r then none else get fs r := by
  unfold removeDirAll
  rw [cstr_eq hp.1, remove_rec fds fs p hs hp hne hd hl hf]
  refine ⟨rfl, ?_⟩
  intro r
  by_cases hr : r = []
  · rw [hr, if_neg (by intro h; exact hne (List.prefix_nil.mp h))]; rfl
  · unfold out
    simp only
    rw [get_filter (P := fun q => decide (¬ comps p <+: q)) hr]
    by_cases c : comps p <+: r <;> simp [c]

/-- With or without symbolic links nothing is made or changed, things are only taken away. -/
theorem C213_only_removes (fds : Nat) (fs : FS) (p : Str) (hs : Sound fs) (r : Path) :
    get (removeDirAll fds fs p).2 r = get fs r ∨ get (removeDirAll fds fs p).2 r = none :=
  (less_rec fds fs (cstr p) hs).2 r

/-- If the call reports success, nothing is left of the directory. -/
theorem C213_success (fds : Nat) (fs : FS) (p : Str) (hs : Sound fs) (hp : Plain p)
    (hl : p.length < 4096) (hd : get fs (comps p) = some .dir)
    (h : (removeDirAll fds fs p).1 = true) (r : Path) (hr : comps p <+: r) :
    get (removeDirAll fds fs p).2 r = none := by
  unfold removeDirAll at h ⊢
  rw [cstr_eq hp.1] at h ⊢
  exact none_below (less_rec fds fs p hs).1 (rec_true hs hp hl hd h) hr

/-- A directory that cannot be named down to its last file is not removed with success. -/
example : removeDirAll 1 [([lit "d"], .dir), ([lit "d", lit "e"], .dir)] (lit "d") =
    (false, [([lit "d"], .dir), ([lit "d", lit "e"], .dir)]) := by decide +kernel

namespace Dirs
/-- A directory with a file and a directory with a file. -/
def tree : FS :=
  [([lit "d"], .dir), ([lit "d", lit "a"], .file (lit "1")), ([lit "d", lit "e"], .dir),
   ([lit "d", lit "e", lit "b"], .file (lit "2")), ([lit "o"], .file (lit "3"))]

theorem tree_sound : Sound tree :=
  sound_of (by decide +kernel) (by decide +kernel) (by decide +kernel)

theorem tree_get (r : Path) (k : Kind) (h : get tree ([lit "d"] ++ r) = some k) :
    r = [] ∧ k = .dir ∨ r = [lit "a"] ∧ k = .file (lit "1") ∨ r = [lit "e"] ∧ k = .dir ∨
      r = [lit "e", lit "b"] ∧ k = .file (lit "2") := by
  have := get_mem (by simp) h
  simp only [tree, List.mem_cons, Prod.mk.injEq, List.singleton_append, List.cons.injEq, true_and,
    List.not_mem_nil, or_false] at this
  rcases this with h | h | h | h | h
  · exact Or.inl h
  · exact Or.inr (Or.inl ⟨h.1, h.2⟩)
  · exact Or.inr (Or.inr (Or.inl ⟨h.1, h.2⟩))
  · exact Or.inr (Or.inr (Or.inr ⟨h.1, h.2⟩))
  · exact absurd h.1.1 (by decide)

theorem tree_ok : NoLinks tree (comps (lit "d")) ∧ Fits 3 tree (lit "d") := by
  have hc : comps (lit "d") = [lit "d"] := by decide +kernel
  constructor
  · intro r t h
    rw [hc] at h
    rcases tree_get r _ h with h | h | h | h <;> cases h.2
  · intro r h
    rw [hc] at h
    cases hk : get tree ([lit "d"] ++ r) with
    | none => exact absurd hk h
    | some k =>
      rcases tree_get r _ hk with h | h | h | h <;> rw [h.1] <;> decide +kernel
end Dirs

example : removeDirAll 3 tree (lit "d") = (true, [([lit "o"], .file (lit "3"))]) := by
  decide +kernel

example : (removeDirAll 3 tree (lit "d")).1 = true :=
  (C213_partial 3 tree (lit "d") tree_sound (by decide +kernel) (by decide +kernel)
    (by decide +kernel) tree_ok.1 tree_ok.2).1

/-- `..` is the directory above, and a path of 4096 bytes leads nowhere, so that nothing is removed by it. -/
theorem C213_paths :
    (∀ (fds : Nat) (fs : FS) (p : Str), 4096 ≤ (cstr p).length → canon fs true p = none ∧ canon fs false p = none)
    ∧ removeDirAll 3 tree (lit "d/e/../e") = removeDirAll 3 tree (lit "d/e")
    ∧ removeDirAll 3 tree (lit "d/e") =
      (true, [([lit "d"], .dir), ([lit "d", lit "a"], .file (lit "1")), ([lit "o"], .file (lit "3"))]) := by
  refine ⟨?_, by decide +kernel, by decide +kernel⟩
  intro fds fs p h
  constructor <;> exact if_pos (Or.inr h)

/-! ### C214 -/

namespace Dirs

/-- The text `a/b/c` of the names of a path. -/
def path : Path → Str
  | [] => []
  | [n] => n
  | n :: m :: r => n ++ 47 :: path (m :: r)

theorem path_snoc (r : Path) (n : Name) (hr : r ≠ []) : path (r ++ [n]) = path r ++ 47 :: n := by
  induction r with
  | nil => exact absurd rfl hr
  | cons m r ih =>
    cases r with
    | nil => rfl
    | cons k r =>
      have := ih (by simp)
      rw [List.cons_append] at this
      rw [List.cons_append, List.cons_append, path, this, path, List.append_assoc, List.cons_append]

theorem comps_one {n : Name} (hn : GoodName n) : comps n = [n] := by
  unfold comps
  rw [split_clean n hn.2.2.2.1]
  have h1 : (decide (n ≠ [] ∧ n ≠ [46])) = true := decide_eq_true ⟨hn.1, hn.2.1⟩
  rw [List.filter_cons, if_pos h1]; rfl

theorem snoc_induct {P : Path → Prop} (h0 : P []) (h1 : ∀ r n, P r → P (r ++ [n])) (r : Path) :
    P r := by
  have : ∀ m (r : Path), r.length = m → P r := by
    intro m
    induction m with
    | zero => intro r hr; rw [List.length_eq_zero_iff.mp hr]; exact h0
    | succ m ih =>
      intro r hr
      rcases List.eq_nil_or_concat r with h' | ⟨r', n, h'⟩
      · rw [h'] at hr; simp at hr
      · rw [List.concat_eq_append] at h'
        rw [h'] at hr ⊢
        exact h1 r' n (ih r' (by simp at hr; exact hr))
  exact this _ r rfl

theorem comps_path (r : Path) : (∀ n ∈ r, GoodName n) → comps (path r) = r := by
  refine snoc_induct (P := fun r => (∀ n ∈ r, GoodName n) → comps (path r) = r) ?_ ?_ r
  · intro _; decide +kernel
  · intro r n ih hg
    by_cases hr : r = []
    · subst hr; exact comps_one (hg n (by simp))
    · rw [path_snoc r n hr, comps_app (hg n (by simp)),
        ih (fun m hm => hg m (List.mem_append_left _ hm))]

theorem path_inj {r r' : Path} (h : ∀ n ∈ r, GoodName n) (h' : ∀ n ∈ r', GoodName n)
    (e : path r = path r') : r = r' := by
  rw [← comps_path r h, e, comps_path r' h']

theorem path_nil {r : Path} (h : ∀ n ∈ r, GoodName n) : path r = [] ↔ r = [] := by
  constructor
  · intro e; exact path_inj h (by simp) e
  · rintro rfl; rfl

theorem comps_base (p : Str) (r : Path) : (∀ n ∈ r, GoodName n) → r ≠ [] →
    comps (p ++ 47 :: path r) = comps p ++ r := by
  refine snoc_induct (P := fun r => (∀ n ∈ r, GoodName n) → r ≠ [] →
    comps (p ++ 47 :: path r) = comps p ++ r) ?_ ?_ r
  · intro _ h; exact absurd rfl h
  · intro r n ih hg _
    have hn := hg n (by simp)
    by_cases hr : r = []
    · subst hr; exact comps_app hn
    · have e : p ++ 47 :: path (r ++ [n]) = (p ++ 47 :: path r) ++ 47 :: n := by
        rw [path_snoc r n hr]; simp
      rw [e, comps_app hn, ih (fun m hm => hg m (List.mem_append_left _ hm)) hr, List.append_assoc]

theorem path_len (r : Path) : r ≠ [] → (path r).length + 1 = textLen r := by
  refine snoc_induct (P := fun r => r ≠ [] → (path r).length + 1 = textLen r) ?_ ?_ r
  · intro h; exact absurd rfl h
  · intro r n ih _
    by_cases hr : r = []
    · subst hr; rfl
    · rw [path_snoc r n hr]
      have := ih hr
      have e : textLen (r ++ [n]) = textLen r + (n.length + 1) := by
        unfold textLen; rw [List.map_append, List.sum_append]; rfl
      rw [e, List.length_append, List.length_cons]
      omega

theorem path_clean (r : Path) (hg : ∀ n ∈ r, GoodName n) : 0 ∉ path r := by
  induction r with
  | nil => simp [path]
  | cons m r ih =>
    have hm := (hg m (by simp)).2.2.2.2
    have ih := ih (fun n hn => hg n (List.mem_cons_of_mem _ hn))
    cases r with
    | nil => exact hm
    | cons k r =>
      rw [path]
      intro h
      rcases List.mem_append.mp h with h | h
      · exact hm h
      · rcases List.mem_cons.mp h with h | h
        · exact absurd h (by decide)
        · exact ih h

/-- The text of a directory below `base`. -/
def fullText (base : Str) (r : Path) : Str := if r = [] then base else base ++ 47 :: path r

theorem fullText_comps (base : Str) (r : Path) (hg : ∀ n ∈ r, GoodName n) :
    comps (fullText base r) = comps base ++ r := by
  unfold fullText
  by_cases h : r = []
  · rw [if_pos h, h, List.append_nil]
  · rw [if_neg h, comps_base base r hg h]

theorem fullText_len (base : Str) (r : Path) : (fullText base r).length = base.length + textLen r := by
  unfold fullText
  by_cases h : r = []
  · rw [if_pos h, h]; rfl
  · rw [if_neg h, List.length_append, List.length_cons]
    have := path_len r h
    omega

theorem fullText_plain {base : Str} (hb : Plain base) {r : Path} (hg : ∀ n ∈ r, GoodName n) :
    Plain (fullText base r) := by
  unfold fullText
  by_cases h : r = []
  · rw [if_pos h]; exact hb
  · rw [if_neg h]
    refine ⟨?_, by simp⟩
    intro h
    rcases List.mem_append.mp h with h | h
    · exact hb.1 h
    · rcases List.mem_cons.mp h with h | h
      · exact absurd h (by decide)
      · exact path_clean r hg h

theorem fullText_child (base : Str) (r : Path) (n : Name) :
    fullText base r ++ 47 :: n = fullText base (r ++ [n]) := by
  unfold fullText
  by_cases h : r = []
  · rw [if_pos h, h, if_neg (by simp)]; rfl
  · rw [if_neg h, if_neg (by simp), path_snoc r n h]; simp

theorem textLen_snoc (r : Path) (n : Name) : textLen (r ++ [n]) = textLen r + (n.length + 1) := by
  unfold textLen; rw [List.map_append, List.sum_append]; rfl

/-- Nothing but what is below a directory is listed, and all of it, once. -/
def Lists (fs : FS) (q r : Path) (l : List Str) : Prop :=
  l.Nodup ∧ ∀ s, s ∈ l ↔ ∃ r', r' ≠ [] ∧ get fs (q ++ r ++ r') ≠ none ∧ s = path (r ++ r')

theorem good_below {fs : FS} (hs : Sound fs) {q r : Path} (h : get fs (q ++ r) ≠ none) :
    ∀ n ∈ r, GoodName n := by
  cases hk : get fs (q ++ r) with
  | none => exact absurd hk h
  | some k => exact fun n hn => good_of_get hs hk n (List.mem_append_right _ hn)

theorem exists_child {fs : FS} (hs : Sound fs) {q r : Path} {n : Name}
    (h : get fs (q ++ n :: r) ≠ none) : get fs (q ++ [n]) ≠ none := by
  by_cases hr : r = []
  · rw [hr] at h; exact h
  · cases hk : get fs (q ++ n :: r) with
    | none => exact absurd hk h
    | some k =>
      have e : q ++ n :: r = (q ++ [n]) ++ r := by simp
      rw [e] at hk
      rw [above hs _ r hk hr]; simp

theorem walk_loop {fs : FS} (hs : Sound fs) {base : Str} (hb : Plain base)
    (hl : NoLinks fs (comps base)) {rec : Str → List Str} (r : Path)
    (hrec : ∀ n, get fs (comps base ++ r ++ [n]) = some .dir →
      Lists fs (comps base) (r ++ [n]) (rec (path (r ++ [n]))))
    (hlen : ∀ n, get fs (comps base ++ r ++ [n]) ≠ none →
      base.length + textLen (r ++ [n]) < pathMax)
    (hg : ∀ n ∈ r, GoodName n) : ∀ (ns : List Name), ns.Nodup →
    (∀ n ∈ ns, get fs (comps base ++ r ++ [n]) ≠ none) →
    (walkLoop fs rec (fullText base r) (path r) ns).Nodup ∧
      ∀ s, s ∈ walkLoop fs rec (fullText base r) (path r) ns ↔
        ∃ n ∈ ns, ∃ r', get fs (comps base ++ r ++ n :: r') ≠ none ∧ s = path (r ++ n :: r')
  | [], _, _ => by
    rw [walkLoop]
    exact ⟨List.nodup_nil, fun s => ⟨fun h => (by cases h), fun ⟨n, hn, _⟩ => (by cases hn)⟩⟩
  | n :: ns, hnd, hm => by
    have hn0 := hm n List.mem_cons_self
    obtain ⟨k, hk⟩ : ∃ k, get fs (comps base ++ r ++ [n]) = some k := by
      cases hx : get fs (comps base ++ r ++ [n]) with
      | none => exact absurd hx hn0
      | some k => exact ⟨k, rfl⟩
    have hgn : ∀ m ∈ r ++ [n], GoodName m := by
      intro m hm'
      exact good_of_get hs hk m (by rw [List.append_assoc]; exact List.mem_append_right _ hm')
    have hkl : ∀ t, k ≠ .link t := by
      rintro t rfl
      exact hl (r ++ [n]) t (by rw [← List.append_assoc]; exact hk)
    have hle := hlen n hn0
    have hchild : childPath (fullText base r) n = fullText base (r ++ [n]) := by
      rw [child_eq, fullText_child]
      rw [fullText_len]
      rw [textLen_snoc] at hle
      omega
    have hstat : stat fs (fullText base (r ++ [n])) = some k := by
      have hp := fullText_plain hb hgn
      exact stat_plain hs hp.1 hp.2 (by rw [fullText_len]; exact hle)
        (fullText_comps base _ hgn) (by rw [← List.append_assoc]; exact hk) hkl
    have hrel : (if path r = [] then n else path r ++ 47 :: n) = path (r ++ [n]) := by
      by_cases c : r = []
      · subst c; rfl
      · rw [if_neg (fun e => c ((path_nil hg).mp e)), path_snoc r n c]
    obtain ⟨ihn, ihm⟩ := walk_loop hs hb hl r hrec hlen hg ns (List.nodup_cons.mp hnd).2
      (fun m h => hm m (List.mem_cons_of_mem _ h))
    -- the entries of the directory itself
    obtain ⟨sub, hsub⟩ : ∃ sub, (if stat fs (childPath (fullText base r) n) = some .dir
        then rec (path (r ++ [n])) else []) = sub := ⟨_, rfl⟩
    have hsubL : sub.Nodup ∧ ∀ s, s ∈ sub ↔ ∃ r', r' ≠ [] ∧
        get fs (comps base ++ r ++ n :: r') ≠ none ∧ s = path (r ++ n :: r') := by
      rw [← hsub, hchild, hstat]
      by_cases hkd : k = .dir
      · rw [if_pos (by rw [hkd])]
        obtain ⟨h1, h2⟩ := hrec n (by rw [hk, hkd])
        refine ⟨h1, fun s => ?_⟩
        rw [h2 s]
        have e1 : ∀ r', comps base ++ (r ++ [n]) ++ r' = comps base ++ r ++ n :: r' := by
          intro r'; simp
        have e2 : ∀ r' : Path, r ++ [n] ++ r' = r ++ n :: r' := by intro r'; simp
        constructor
        · rintro ⟨r', ha, hb', hc⟩
          rw [e1] at hb'; rw [e2] at hc
          exact ⟨r', ha, hb', hc⟩
        · rintro ⟨r', ha, hb', hc⟩
          exact ⟨r', ha, by rw [e1]; exact hb', by rw [e2]; exact hc⟩
      · rw [if_neg (fun e => hkd (Option.some.inj e))]
        refine ⟨List.nodup_nil, fun s => ⟨fun h => (by cases h), ?_⟩⟩
        rintro ⟨r', ha, hb', _⟩
        exfalso
        have e : comps base ++ r ++ n :: r' = (comps base ++ r ++ [n]) ++ r' := by simp
        rw [e] at hb'
        cases hx : get fs ((comps base ++ r ++ [n]) ++ r') with
        | none => exact hb' hx
        | some k' =>
          have := above hs _ r' hx ha
          rw [hk] at this
          exact hkd (Option.some.inj this)
    have goodAt : ∀ m r', get fs (comps base ++ r ++ m :: r') ≠ none →
        ∀ x ∈ r ++ m :: r', GoodName x := by
      intro m r' h
      refine good_below hs (q := comps base) ?_
      rw [← List.append_assoc]; exact h
    rw [walkLoop]
    simp only [hrel, hsub]
    constructor
    · rw [List.nodup_cons, List.nodup_append]
      refine ⟨?_, hsubL.1, ihn, ?_⟩
      · intro h
        rcases List.mem_append.mp h with h | h
        · obtain ⟨r', ha, hb', hc⟩ := (hsubL.2 _).mp h
          have := path_inj hgn (goodAt n r' hb') hc
          have := List.append_cancel_left this
          rw [List.cons.injEq] at this
          exact ha this.2.symm
        · obtain ⟨m, hmm, r', hb', hc⟩ := (ihm _).mp h
          have := path_inj hgn (goodAt m r' hb') hc
          have := List.append_cancel_left this
          rw [List.cons.injEq] at this
          rw [← this.1] at hmm
          exact (List.nodup_cons.mp hnd).1 hmm
      · rintro a h1 b h2 rfl
        obtain ⟨r1, _, ha1, hb1⟩ := (hsubL.2 _).mp h1
        obtain ⟨m, hmm, r2, ha2, hb2⟩ := (ihm _).mp h2
        have := path_inj (goodAt n r1 ha1) (goodAt m r2 ha2) (hb1.symm.trans hb2)
        have := List.append_cancel_left this
        rw [List.cons.injEq] at this
        rw [← this.1] at hmm
        exact (List.nodup_cons.mp hnd).1 hmm
    · intro s
      rw [List.mem_cons, List.mem_append, hsubL.2, ihm]
      constructor
      · rintro (h | ⟨r', _, hb', hc⟩ | ⟨m, hmm, r', hb', hc⟩)
        · exact ⟨n, List.mem_cons_self, [], hn0, h⟩
        · exact ⟨n, List.mem_cons_self, r', hb', hc⟩
        · exact ⟨m, List.mem_cons_of_mem _ hmm, r', hb', hc⟩
      · rintro ⟨m, hmm, r', hb', hc⟩
        rcases List.mem_cons.mp hmm with h | h
        · subst h
          by_cases c : r' = []
          · left; rw [c] at hc; exact hc
          · exact Or.inr (Or.inl ⟨r', c, hb', hc⟩)
        · exact Or.inr (Or.inr ⟨m, h, r', hb', hc⟩)

theorem walk_rec {fs : FS} (hs : Sound fs) {base : Str} (hb : Plain base)
    (hl : NoLinks fs (comps base))
    (hlen : ∀ r, get fs (comps base ++ r) ≠ none → base.length + textLen r < pathMax) :
    ∀ (fds : Nat) (r : Path), get fs (comps base ++ r) = some .dir →
    (∀ r', get fs (comps base ++ r ++ r') ≠ none → r'.length < fds) →
    Lists fs (comps base) r (walkRec fs base fds (path r))
  | 0, r, hd, hf => by
    have := hf [] (by rw [List.append_nil, hd]; simp)
    simp at this
  | fds + 1, r, hd, hf => by
    have hg : ∀ n ∈ r, GoodName n := good_below hs (q := comps base) (by rw [hd]; simp)
    have hle := hlen r (by rw [hd]; simp)
    have hfull : (if path r = [] then base.take (pathBuf - 1) else childPath base (path r)) =
        fullText base r := by
      unfold fullText
      by_cases c : r = []
      · rw [if_pos ((path_nil hg).mpr c), if_pos c, List.take_of_length_le]
        rw [pathBuf]; rw [pathMax] at hle; omega
      · rw [if_neg (fun e => c ((path_nil hg).mp e)), if_neg c, child_eq]
        have := path_len r c
        omega
    have hp := fullText_plain hb hg
    have hls : list fs (fullText base r) = some (names fs (comps base ++ r)) :=
      list_plain hs hp.1 hp.2 (by rw [fullText_len]; exact hle) (fullText_comps base r hg) hd
    rw [walkRec]
    simp only [hfull, hls]
    obtain ⟨h1, h2⟩ := walk_loop hs hb hl (rec := walkRec fs base fds) r
      (fun n hn => walk_rec hs hb hl hlen fds (r ++ [n]) (by rw [← List.append_assoc]; exact hn)
        (by
          intro r' hr'
          have e : comps base ++ (r ++ [n]) ++ r' = comps base ++ r ++ (n :: r') := by simp
          rw [e] at hr'
          have := hf _ hr'
          simp at this
          omega))
      (fun n hn => hlen (r ++ [n]) (by rw [← List.append_assoc]; exact hn)) hg
      (names fs (comps base ++ r)) (nodup_names hs.nodup _) (fun n hn => mem_names.mp hn)
    refine ⟨h1, fun s => ?_⟩
    rw [h2 s]
    constructor
    · rintro ⟨n, _, r', ha, hb'⟩
      exact ⟨n :: r', by simp, ha, hb'⟩
    · rintro ⟨r', ha, hb', hc⟩
      cases r' with
      | nil => exact absurd rfl ha
      | cons n r' => exact ⟨n, mem_names.mpr (exists_child hs hb'), r', hb', hc⟩

/-- Only so many levels are listed as there are file descriptors. -/
theorem walk_levels {fs : FS} (hs : Sound fs) (base : Str) : ∀ (fds : Nat) (r : Path),
    (∀ n ∈ r, GoodName n) → ∀ s ∈ walkRec fs base fds (path r),
    ∃ r', s = path (r ++ r') ∧ r'.length ≤ fds ∧ ∀ n ∈ r', GoodName n
  | 0, r, _, s, h => by cases h
  | fds + 1, r, hg, s, h => by
    rw [walkRec] at h
    cases hls : list fs (if path r = [] then base.take (pathBuf - 1)
        else childPath base (path r)) with
    | none => rw [hls] at h; cases h
    | some ns =>
      rw [hls] at h
      simp only at h
      have hns : ∀ n ∈ ns, GoodName n := by
        unfold list at hls
        split at hls
        · rename_i d _
          by_cases c : get fs d = some .dir
          · rw [if_pos c] at hls
            cases hls
            intro n hn
            exact good_below hs (q := d) (mem_names.mp hn) n (by simp)
          · rw [if_neg c] at hls; cases hls
        · cases hls
      generalize (if path r = [] then base.take (pathBuf - 1)
        else childPath base (path r)) = full at h
      clear hls
      induction ns with
      | nil => cases h
      | cons n ns ih =>
        have hgn := hns n List.mem_cons_self
        have hrel : (if path r = [] then n else path r ++ 47 :: n) = path (r ++ [n]) := by
          by_cases c : r = []
          · subst c; rfl
          · rw [if_neg (fun e => c ((path_nil hg).mp e)), path_snoc r n c]
        rw [walkLoop] at h
        simp only [hrel] at h
        rcases List.mem_cons.mp h with h | h
        · exact ⟨[n], h, by simp, by simpa using hgn⟩
        · rcases List.mem_append.mp h with h | h
          · by_cases c : stat fs (childPath full n) = some .dir
            · rw [if_pos c] at h
              obtain ⟨r', h1, h2, h3⟩ := walk_levels hs base fds (r ++ [n])
                (by
                  intro m hm
                  rcases List.mem_append.mp hm with hm | hm
                  · exact hg m hm
                  · rw [List.mem_singleton] at hm; rw [hm]; exact hgn) s h
              refine ⟨n :: r', by rw [h1]; simp, by simpa using h2, ?_⟩
              intro m hm
              rcases List.mem_cons.mp hm with hm | hm
              · rw [hm]; exact hgn
              · exact h3 m hm
            · rw [if_neg c] at h; cases h
          · exact ih (fun m hm => hns m (List.mem_cons_of_mem _ hm)) h

end Dirs

/-- `io.walk` lists all files and directories below its directory, and nothing else. -/
def C214_statement : Prop :=
  ∀ (fds : Nat) (fs : FS) (p : Str), 0 < fds → Sound fs → Plain p → p.length < 4096 →
    get fs (comps p) = some .dir →
    ∀ s, s ∈ walk fds fs p ↔ ∃ r, r ≠ [] ∧ get fs (comps p ++ r) ≠ none ∧ s = path r

/-- A directory with a symbolic link to itself is listed again and again. -/
theorem C214_witness :
    walk 4 [([lit "d"], .dir), ([lit "d", lit "l"], .link (lit "/d"))] (lit "d") =
      [lit "l", lit "l/l", lit "l/l/l", lit "l/l/l/l"] := by
  decide +kernel

theorem C214_fails : ¬ C214_statement := by
  intro h
  have := (h 4 [([lit "d"], .dir), ([lit "d", lit "l"], .link (lit "/d"))] (lit "d") (by decide)
    (sound_of (by decide +kernel) (by decide +kernel) (by decide +kernel)) (by decide +kernel)
    (by decide +kernel) (by decide +kernel) (lit "l/l")).mp (by rw [C214_witness]; decide +kernel)
  obtain ⟨r, _, h1, h2⟩ := this
  cases hk : get [([lit "d"], Kind.dir), ([lit "d", lit "l"], .link (lit "/d"))]
      (comps (lit "d") ++ r) with
  | none => exact h1 hk
  | some k =>
    have hc : comps (lit "d") = [lit "d"] := by decide +kernel
    rw [hc] at hk
    have := get_mem (by simp) hk
    simp only [List.mem_cons, Prod.mk.injEq, List.singleton_append, List.cons.injEq, true_and,
      List.not_mem_nil, or_false] at this
    rcases this with h | h
    · rw [h.1] at h2; exact absurd h2 (by decide +kernel)
    · rw [h.1] at h2; exact absurd h2 (by decide +kernel)

/-- Without symbolic links below the directory, and if all paths below it can be named, exactly what
is below is listed, each path once.  Missing: directories with symbolic links, for which this is
false, and directories with more levels than there are file descriptors or with longer paths. -/
theorem C214_partial (fds : Nat) (fs : FS) (p : Str) (hs : Sound fs) (hp : Plain p)
    (hd : get fs (comps p) = some .dir) (hl : NoLinks fs (comps p)) (hf : Fits fds fs p) :
    (walk fds fs p).Nodup ∧
      ∀ s, s ∈ walk fds fs p ↔ ∃ r, r ≠ [] ∧ get fs (comps p ++ r) ≠ none ∧ s = path r := by
  unfold walk
  rw [cstr_eq hp.1]
  have := walk_rec hs hp hl (fun r hr => (hf r hr).2) fds [] (by rw [List.append_nil]; exact hd)
    (by intro r hr; rw [List.append_nil] at hr; exact (hf r hr).1)
  refine ⟨this.1, fun s => ?_⟩
  rw [show ([] : Str) = path [] from rfl, this.2 s]
  simp only [List.append_nil, List.nil_append]

/-- Whatever is more levels below the directory than there are file descriptors is not listed. -/
theorem C214_levels (fds : Nat) (fs : FS) (p : Str) (hs : Sound fs) (r : Path)
    (hr : get fs (comps p ++ r) ≠ none) (h : fds < r.length) : path r ∉ walk fds fs p := by
  intro hm
  obtain ⟨r', h1, h2, h3⟩ := walk_levels hs (cstr p) fds [] (by simp) (path r) hm
  have := path_inj (good_below hs hr) (by simpa using h3) h1
  rw [List.nil_append] at this
  rw [this] at h
  omega

namespace Dirs
/-- `a/a/a/…`, so many directories. -/
def nest (n : Nat) : FS := (List.range n).map fun i => (List.replicate (i + 1) (lit "a"), .dir)

theorem nest_mem {n : Nat} {e : Path × Kind} :
    e ∈ nest n ↔ ∃ i, i < n ∧ e = (List.replicate (i + 1) (lit "a"), .dir) := by
  unfold nest
  rw [List.mem_map]
  constructor
  · rintro ⟨i, hi, h⟩; exact ⟨i, List.mem_range.mp hi, h.symm⟩
  · rintro ⟨i, hi, h⟩; exact ⟨i, List.mem_range.mpr hi, h.symm⟩

theorem nest_nodup (n : Nat) : ((nest n).map (·.1)).Nodup := by
  unfold nest
  rw [List.map_map]
  refine List.Pairwise.map _ ?_ (List.nodup_range (n := n))
  intro a b hab h
  apply hab
  have := congrArg List.length h
  simp at this
  exact this

theorem nest_get {n i : Nat} (h : i ≤ n) : get (nest n) (List.replicate i (lit "a")) = some .dir := by
  cases i with
  | zero => rfl
  | succ i => exact get_of_mem (nest_nodup n) (by simp [List.replicate]) (nest_mem.mpr ⟨i, h, rfl⟩)

theorem nest_sound (n : Nat) : Sound (nest n) := by
  refine ⟨nest_nodup n, ?_, ?_⟩
  · intro e he
    obtain ⟨i, _, rfl⟩ := nest_mem.mp he
    refine ⟨by simp [List.replicate], fun m hm => ?_⟩
    rw [List.eq_of_mem_replicate hm]
    decide +kernel
  · intro e he
    obtain ⟨i, hi, rfl⟩ := nest_mem.mp he
    simp only [List.dropLast_replicate, Nat.add_sub_cancel]
    exact nest_get (by omega)

theorem nest_links (n : Nat) (q : Path) : NoLinks (nest n) q := by
  intro r t h
  by_cases c : q ++ r = []
  · rw [c] at h; cases h
  · obtain ⟨i, _, h'⟩ := nest_mem.mp (get_mem c h)
    exact absurd (congrArg Prod.snd h') (by simp)
end Dirs

/-- However many file descriptors there are, there is a directory without symbolic links that is not
listed as a whole, and the fallible call reports no error. -/
theorem C214_silent (fds : Nat) :
    ∃ (fs : FS) (p : Str) (r : Path), Sound fs ∧ NoLinks fs (comps p) ∧
      get fs (comps p ++ r) = some .dir ∧ path r ∉ walk (fds + 1) fs p ∧
      (walkResult (fds + 1) fs p) = (walk (fds + 1) fs p, false) := by
  have hc : comps (lit "a") = List.replicate 1 (lit "a") := by decide +kernel
  have hg : get (nest (fds + 3)) (comps (lit "a") ++ List.replicate (fds + 2) (lit "a")) =
      some .dir := by
    rw [hc, List.replicate_append_replicate]
    exact nest_get (by omega)
  refine ⟨nest (fds + 3), lit "a", List.replicate (fds + 2) (lit "a"), nest_sound _,
    nest_links _ _, hg, ?_, ?_⟩
  · exact C214_levels _ _ _ (nest_sound _) _ (by rw [hg]; simp) (by simp)
  · unfold walkResult
    have h0 : get (nest (fds + 3)) (comps (lit "a")) = some .dir := by
      rw [hc]; exact nest_get (by omega)
    have h1 : cstr (lit "a") = lit "a" := by decide +kernel
    rw [h1, list_plain (nest_sound _) (by decide +kernel) (by decide +kernel) (by decide +kernel)
      rfl h0]

example : walk 3 tree (lit "d") = [lit "a", lit "e", lit "e/b"] := by decide +kernel

example : (walk 3 tree (lit "d")).Nodup :=
  (C214_partial 3 tree (lit "d") tree_sound (by decide +kernel) (by decide +kernel)
    tree_ok.1 tree_ok.2).1

end Verif.Props

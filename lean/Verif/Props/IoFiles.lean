import Verif.Props.IoDirs

/-
C215–C223: reading, writing, copying, moving and deleting files.
-/
namespace Verif.Props
open Verif Verif.Str Verif.Interp Verif.Io Verif.Io.Fs Dirs

namespace Files

/-! ### What the calls of the system do -/

theorem get_add {fs : FS} {q r : Path} {k : Kind} (hq : q ≠ []) (h : get fs q = none) :
    get (fs ++ [(q, k)]) r = if r = q then some k else get fs r := by
  by_cases hr : r = []
  · rw [hr, if_neg (fun e => hq e.symm)]; rfl
  · unfold Io.get at h ⊢
    rw [if_neg hq, Option.map_eq_none_iff] at h
    rw [if_neg hr, if_neg hr, List.find?_append]
    by_cases c : r = q
    · subst c
      rw [if_pos rfl, h]
      simp
    · rw [if_neg c]
      have : ([(q, k)] : FS).find? (fun e => decide (e.1 = r)) = none := by
        have : ¬ q = r := fun e => c e.symm
        simp [this]
      rw [this, Option.or_none]

theorem get_set {fs : FS} {q r : Path} {d d' : Str} (h : get fs q = some (.file d)) :
    get (setData fs q d') r = if r = q then some (.file d') else get fs r := by
  have hq : q ≠ [] := by rintro rfl; cases h
  by_cases hr : r = []
  · rw [hr, if_neg (fun e => hq e.symm)]; rfl
  · unfold Io.get setData at *
    rw [if_neg hq] at h
    rw [if_neg hr, if_neg hr]
    rw [List.find?_map]
    have e : (fun e : Path × Kind => decide (e.1 = r)) ∘
        (fun e => if e.1 = q then (q, Kind.file d') else e) = fun e => decide (e.1 = r) := by
      funext e
      simp only [Function.comp]
      by_cases c : e.1 = q
      · simp [c]
      · simp [c]
    rw [e]
    by_cases c : r = q
    · subst c
      rw [if_pos rfl]
      cases hf : fs.find? (fun e => decide (e.1 = r)) with
      | none => rw [hf] at h; cases h
      | some x =>
        have h2 := List.find?_some hf
        simp only [decide_eq_true_eq] at h2
        simp [h2]
    · rw [if_neg c]
      cases hf : fs.find? (fun e => decide (e.1 = r)) with
      | none => rfl
      | some x =>
        have h2 := List.find?_some hf
        simp only [decide_eq_true_eq] at h2
        have : ¬ x.1 = q := by rw [h2]; exact c
        simp [this]

theorem sound_add {fs : FS} (hs : Sound fs) {q : Path} {n : Name} {k : Kind} (hn : GoodName n)
    (hd : get fs q = some .dir) (h : get fs (q ++ [n]) = none) : Sound (fs ++ [(q ++ [n], k)]) := by
  have hg : ∀ r, get (fs ++ [(q ++ [n], k)]) r = if r = q ++ [n] then some k else get fs r :=
    fun r => get_add (by simp) h
  have hnm : ∀ e ∈ fs, e.1 ≠ q ++ [n] := by
    intro e he c
    rw [← c, get_of_mem hs.nodup (hs.good e he).1 he] at h
    cases h
  refine ⟨?_, ?_, ?_⟩
  · rw [List.map_append, List.nodup_append]
    refine ⟨hs.nodup, by simp, ?_⟩
    intro a ha b hb c
    obtain ⟨e, he, rfl⟩ := List.mem_map.mp ha
    simp only [List.map_cons, List.map_nil, List.mem_singleton] at hb
    exact hnm e he (c.trans hb)
  · intro e he
    rcases List.mem_append.mp he with he | he
    · exact hs.good e he
    · rw [List.mem_singleton] at he
      subst he
      refine ⟨by simp, fun m hm => ?_⟩
      rcases List.mem_append.mp hm with hm | hm
      · exact good_of_get hs hd m hm
      · rw [List.mem_singleton] at hm; rw [hm]; exact hn
  · intro e he
    rw [hg]
    rcases List.mem_append.mp he with he | he
    · have h1 := hs.parents e he
      rw [if_neg]
      · exact h1
      · intro c; rw [c, h] at h1; cases h1
    · rw [List.mem_singleton] at he
      subst he
      simp only [List.dropLast_concat]
      rw [if_neg, hd]
      intro c
      have := congrArg List.length c
      simp at this

theorem sound_set {fs : FS} (hs : Sound fs) {q : Path} {d d' : Str}
    (h : get fs q = some (.file d)) : Sound (setData fs q d') := by
  have hk : (setData fs q d').map (·.1) = fs.map (·.1) := by
    unfold setData
    rw [List.map_map]
    apply List.map_congr_left
    intro e _
    simp only [Function.comp]
    by_cases c : e.1 = q
    · rw [if_pos c]; exact c.symm
    · rw [if_neg c]
  have hm : ∀ e ∈ setData fs q d', ∃ e' ∈ fs, e'.1 = e.1 := by
    intro e he
    have : e.1 ∈ (setData fs q d').map (·.1) := List.mem_map.mpr ⟨e, he, rfl⟩
    rw [hk] at this
    obtain ⟨e', h1, h2⟩ := List.mem_map.mp this
    exact ⟨e', h1, h2⟩
  refine ⟨hk ▸ hs.nodup, ?_, ?_⟩
  · intro e he
    obtain ⟨e', h1, h2⟩ := hm e he
    rw [← h2]; exact hs.good e' h1
  · intro e he
    obtain ⟨e', h1, h2⟩ := hm e he
    have h3 := hs.parents e' h1
    rw [h2] at h3
    rw [get_set h, if_neg]
    · exact h3
    · intro c; rw [c, h] at h3; cases h3

/-- A file can be written at a place: there is a file or nothing. -/
def Writable (fs : FS) (q : Path) : Prop := get fs q = none ∨ ∃ d, get fs q = some (.file d)

theorem open_trunc {fs : FS} {p : Str} {q : Path} (hc : canon fs true p = some q)
    (hw : Writable fs q) : ∃ fs', openTrunc fs p = some (q, fs') ∧
      ∀ r, get fs' r = if r = q then some (.file []) else get fs r := by
  have hq : q ≠ [] := by
    rintro rfl
    rcases hw with h | ⟨d, h⟩ <;> cases h
  unfold openTrunc
  rw [hc]
  rcases hw with h | ⟨d, h⟩
  · simp only [h]
    exact ⟨_, rfl, fun r => get_add hq h⟩
  · simp only [h]
    exact ⟨_, rfl, fun r => get_set h⟩

theorem open_append {fs : FS} {p : Str} {q : Path} (hc : canon fs true p = some q)
    (hw : Writable fs q) : ∃ fs', openAppend fs p = some (q, dataOf fs q, fs') ∧
      ∀ r, get fs' r = if r = q then some (.file (dataOf fs q)) else get fs r := by
  have hq : q ≠ [] := by
    rintro rfl
    rcases hw with h | ⟨d, h⟩ <;> cases h
  unfold openAppend dataOf
  rw [hc]
  rcases hw with h | ⟨d, h⟩
  · simp only [h]
    exact ⟨_, rfl, fun r => get_add hq h⟩
  · simp only [h]
    refine ⟨_, rfl, fun r => ?_⟩
    by_cases c : r = q
    · rw [if_pos c, c, h]
    · rw [if_neg c]

theorem written_get {fs : FS} {q : Path} {d old data : Str} {room : Nat} {r : Path}
    (h : get fs q = some (.file d)) :
    get (written fs q old room data) r =
      if r = q then some (.file (old ++ data.take room)) else get fs r := get_set h

theorem not_dir {fs : FS} {p : Str} {q : Path} (hc : canon fs true p = some q)
    (h : get fs q ≠ some .dir) : isDir fs p = false := by
  unfold isDir stat
  rw [hc]
  exact decide_eq_false h

theorem writable_not_dir {fs : FS} {q : Path} (hw : Writable fs q) : get fs q ≠ some .dir := by
  rcases hw with h | ⟨d, h⟩ <;> rw [h] <;> simp

end Files
open Files

/-! ### C215 -/

/-- After a copy that has succeeded on a disk with enough room, both files have the data. -/
def C215_statement : Prop :=
  ∀ (fs : FS) (room : Nat) (p p' d : Str) (fs' : FS), Sound fs →
    stat fs p = some (.file d) → d.length ≤ room → copyFile fs room p p' = .ok (true, fs') →
    stat fs' p = some (.file d) ∧ stat fs' p' = some (.file d)

namespace Files
def oneFile : FS := [([lit "a"], .file (lit "data"))]
theorem oneFile_sound : Sound oneFile :=
  sound_of (by decide +kernel) (by decide +kernel) (by decide +kernel)
end Files

/-- Copied to itself, also under another spelling, a file is emptied, and success reported. -/
theorem C215_witness :
    copyFile oneFile 100 (lit "a") (lit "./a") = .ok (true, [([lit "a"], .file [])]) := by
  decide +kernel

theorem C215_fails : ¬ C215_statement := by
  intro h
  have := (h oneFile 100 (lit "a") (lit "./a") (lit "data") _ oneFile_sound (by decide +kernel)
    (by decide +kernel) C215_witness).1
  exact absurd this (by decide +kernel)

/-- To another place with enough room, the copy has the data of the source and nothing else is
changed.  Missing: a copy to the same place, for which this is false. -/
theorem C215_partial (fs : FS) (room : Nat) (p p' d : Str) (s q : Path)
    (hs : canon fs true p = some s) (hd : get fs s = some (.file d))
    (hq : canon fs true p' = some q) (hw : Writable fs q) (hne : s ≠ q) (hr : d.length ≤ room) :
    ∃ fs', copyFile fs room p p' = .ok (true, fs') ∧
      ∀ r, get fs' r = if r = q then some (.file d) else get fs r := by
  obtain ⟨fs1, h1, h2⟩ := open_trunc hq hw
  have hop : openRead fs p = some s := by unfold openRead; rw [hs]; simp only [hd]
  have hda : dataOf fs1 s = d := by
    unfold dataOf; rw [h2, if_neg hne, hd]
  refine ⟨written fs1 q [] room d, ?_, ?_⟩
  · unfold copyFile
    rw [not_dir hs (by rw [hd]; simp)]
    simp only [Bool.false_eq_true, if_false, hop, h1, hda]
    have : fwriteAll room d = true := by
      unfold fwriteAll
      have := Nat.div_mul_le_self d.length block
      exact decide_eq_true (by omega)
    rw [this]
  · intro r
    rw [written_get (d := []) (by rw [h2, if_pos rfl]), List.nil_append,
      List.take_of_length_le hr, h2]
    by_cases c : r = q
    · rw [if_pos c, if_pos c]
    · rw [if_neg c, if_neg c, if_neg c]

/-- Whatever the spelling: a copy to the same place empties the file and reports success. -/
theorem C215_same (fs : FS) (room : Nat) (p p' d : Str) (s : Path)
    (hs : canon fs true p = some s) (hs' : canon fs true p' = some s)
    (hd : get fs s = some (.file d)) :
    ∃ fs', copyFile fs room p p' = .ok (true, fs') ∧ get fs' s = some (.file []) := by
  obtain ⟨fs1, h1, h2⟩ := open_trunc hs' (Or.inr ⟨d, hd⟩)
  have hop : openRead fs p = some s := by unfold openRead; rw [hs]; simp only [hd]
  have hda : dataOf fs1 s = [] := by unfold dataOf; rw [h2, if_pos rfl]
  refine ⟨written fs1 s [] room [], ?_, ?_⟩
  · unfold copyFile
    rw [not_dir hs (by rw [hd]; simp)]
    simp only [Bool.false_eq_true, if_false, hop, h1, hda]
    have : fwriteAll room [] = true := by
      unfold fwriteAll
      exact decide_eq_true (by simp)
    rw [this]
  · rw [written_get (d := []) (by rw [h2, if_pos rfl]), if_pos rfl]; simp

example : copyFile oneFile 4 (lit "a") (lit "b") =
    .ok (true, [([lit "a"], .file (lit "data")), ([lit "b"], .file (lit "data"))]) := by
  decide +kernel

/-! ### C216 -/

/-- If a write reports success, all of the data is in the file. -/
def C216_statement : Prop :=
  ∀ (fs : FS) (room : Nat) (p data : Str) (q : Path) (fs' : FS), Sound fs →
    canon fs true p = some q →
    (writeFile fs room p data = .ok (true, fs') → get fs' q = some (.file data)) ∧
    (writeFileResult fs room p data = .ok (true, false, fs') → get fs' q = some (.file data))

/-- On a full disk nothing is written, and both calls report success. -/
theorem C216_witness :
    writeFile [] 0 (lit "a") (lit "data") = .ok (true, [([lit "a"], .file [])]) ∧
      writeFileResult [] 0 (lit "a") (lit "data") = .ok (true, false, [([lit "a"], .file [])]) := by
  constructor <;> decide +kernel

theorem C216_fails : ¬ C216_statement := by
  intro h
  have := (h [] 0 (lit "a") (lit "data") [lit "a"] _
    (sound_of (by decide) (by decide) (by decide)) (by decide +kernel)).1 C216_witness.1
  exact absurd this (by decide +kernel)

/-- `io.write_file`: the file has what the disk took, nothing else is changed, and success is reported
exactly if the disk took the whole blocks of 4096 bytes.  So with enough room all is right, and if
success is reported, fewer than 4096 bytes are missing.  Missing: that none are. -/
theorem C216_partial (fs : FS) (room : Nat) (p data : Str) (q : Path)
    (hc : canon fs true p = some q) (hw : Writable fs q) :
    (∃ b fs', writeFile fs room p data = .ok (b, fs') ∧
      (b = true ↔ data.length / 4096 * 4096 ≤ room) ∧
      ∀ r, get fs' r = if r = q then some (.file (data.take room)) else get fs r) ∧
    (∀ fs', writeFile fs room p data = .ok (true, fs') → data.length < room + 4096) := by
  obtain ⟨fs1, h1, h2⟩ := open_trunc hc hw
  have key : writeFile fs room p data =
      .ok (fwriteAll room data, written fs1 q [] room data) := by
    unfold writeFile
    rw [not_dir hc (writable_not_dir hw)]
    simp only [Bool.false_eq_true, if_false, h1]
  have hb : fwriteAll room data = true ↔ data.length / 4096 * 4096 ≤ room := by
    unfold fwriteAll block
    exact decide_eq_true_iff
  refine ⟨⟨_, _, key, hb, ?_⟩, ?_⟩
  · intro r
    rw [written_get (d := []) (by rw [h2, if_pos rfl]), List.nil_append, h2]
    by_cases c : r = q
    · rw [if_pos c, if_pos c]
    · rw [if_neg c, if_neg c, if_neg c]
  · intro fs' h
    rw [key] at h
    have hb' : fwriteAll room data = true := by
      have := (Outcome.ok.inj h)
      exact congrArg Prod.fst this
    have := hb.mp hb'
    omega

/-- The fallible `io.write_file` reports success whenever the file could be opened, however little of
the data the disk took. -/
theorem C216_result (fs : FS) (room : Nat) (p data : Str) (q : Path)
    (hc : canon fs true p = some q) (hw : Writable fs q) :
    ∃ fs', writeFileResult fs room p data = .ok (true, false, fs') ∧
      ∀ r, get fs' r = if r = q then some (.file (data.take room)) else get fs r := by
  obtain ⟨fs1, h1, h2⟩ := open_trunc hc hw
  refine ⟨written fs1 q [] room data, ?_, ?_⟩
  · unfold writeFileResult
    rw [not_dir hc (writable_not_dir hw)]
    simp only [Bool.false_eq_true, if_false, h1]
  · intro r
    rw [written_get (d := []) (by rw [h2, if_pos rfl]), List.nil_append, h2]
    by_cases c : r = q
    · rw [if_pos c, if_pos c]
    · rw [if_neg c, if_neg c, if_neg c]

/-- `io.append_file`, and the fallible one: the data comes behind what the file has, as far as the
disk takes it. -/
theorem C216_append_partial (fs : FS) (room : Nat) (p data : Str) (q : Path)
    (hc : canon fs true p = some q) (hw : Writable fs q) :
    ∃ b fs', appendFile fs room p data = .ok (b, fs') ∧
      appendFileResult fs room p data = .ok (b, !b, fs') ∧
      (b = true ↔ data.length / 4096 * 4096 ≤ room) ∧
      ∀ r, get fs' r =
        if r = q then some (.file (dataOf fs q ++ data.take room)) else get fs r := by
  obtain ⟨fs1, h1, h2⟩ := open_append hc hw
  have key : appendFile fs room p data =
      .ok (fwriteAll room data, written fs1 q (dataOf fs q) room data) := by
    unfold appendFile
    rw [not_dir hc (writable_not_dir hw)]
    simp only [Bool.false_eq_true, if_false, h1]
  refine ⟨_, _, key, ?_, ?_, ?_⟩
  · unfold appendFileResult
    rw [not_dir hc (writable_not_dir hw)]
    simp only [Bool.false_eq_true, if_false, key]
  · unfold fwriteAll block
    exact decide_eq_true_iff
  · intro r
    rw [written_get (d := dataOf fs q) (by rw [h2, if_pos rfl]), h2]
    by_cases c : r = q
    · rw [if_pos c, if_pos c]
    · rw [if_neg c, if_neg c, if_neg c]

example : writeFile oneFile 2 (lit "a") (lit "new") =
    .ok (true, [([lit "a"], .file (lit "ne"))]) := by decide +kernel
example : appendFile oneFile 9 (lit "a") (lit "new") =
    .ok (true, [([lit "a"], .file (lit "datanew"))]) := by decide +kernel
example : fwriteAll 5000 (List.replicate 8192 65) = false := by decide +kernel

/-! ### C217 -/

/-- If `io.make_dir_all` reports success, the path leads to a directory. -/
def C217_statement : Prop :=
  ∀ (fs : FS) (p : Str), Sound fs → (makeDirAll fs p).1 = true →
    stat (makeDirAll fs p).2 p = some .dir

/-- A file at the end of the path counts as success. -/
theorem C217_witness : makeDirAll oneFile (lit "a") = (true, oneFile) := by decide +kernel

theorem C217_fails : ¬ C217_statement := by
  intro h
  have := h oneFile (lit "a") oneFile_sound (by rw [C217_witness])
  rw [C217_witness] at this
  exact absurd this (by decide +kernel)

namespace Files

/-- What `io.make_dir_all` is to do: all directories on the way exist, nothing else is changed. -/
def Made (fs fs' : FS) (q : Path) : Prop :=
  Sound fs' ∧ ∀ r, get fs' r = if r <+: q then some .dir else get fs r

/-- No file is in the way. -/
def Free (fs : FS) (q : Path) : Prop := ∀ r, r <+: q → get fs r = none ∨ get fs r = some .dir

theorem prefix_snoc {r q : Path} {n : Name} : r <+: q ++ [n] ↔ r = q ++ [n] ∨ r <+: q :=
  List.prefix_concat_iff

theorem made_nil {fs : FS} (hs : Sound fs) : Made fs fs [] := by
  refine ⟨hs, fun r => ?_⟩
  by_cases c : r = []
  · rw [c, if_pos List.prefix_rfl]; rfl
  · rw [if_neg (fun h => c (List.prefix_nil.mp h))]

theorem mkdir_step {fs fs1 : FS} {p : Str} {q : Path} {n : Name} (hm : Made fs fs1 q)
    (hf : Free fs (q ++ [n])) (hn : GoodName n) (hp : Plain p) (hl : p.length < pathMax)
    (hc : comps p = q ++ [n]) :
    (∃ fs2, mkdir fs1 p = .made fs2 ∧ Made fs fs2 (q ++ [n])) ∨
      (mkdir fs1 p = .exists_ ∧ Made fs fs1 (q ++ [n])) := by
  obtain ⟨hs, hg⟩ := hm
  have hnp : ¬ q ++ [n] <+: q := by
    intro h
    have := h.length_le
    simp at this
    omega
  have hd : get fs1 q = some .dir := by rw [hg, if_pos List.prefix_rfl]
  have h0 : get fs1 (q ++ [n]) = get fs (q ++ [n]) := by rw [hg, if_neg hnp]
  rcases hf (q ++ [n]) List.prefix_rfl with h | h
  · left
    have h1 : get fs1 (q ++ [n]) = none := h0.trans h
    refine ⟨fs1 ++ [(q ++ [n], .dir)], ?_, sound_add hs hn hd h1, ?_⟩
    · unfold mkdir
      rw [canon_new hs false hp.1 hp.2 hl hc hn hd h1]
      simp only [h1]
    · intro r
      rw [get_add (by simp) h1, hg]
      by_cases c : r = q ++ [n]
      · rw [if_pos c, if_pos (prefix_snoc.mpr (Or.inl c))]
      · rw [if_neg c]
        by_cases c2 : r <+: q
        · rw [if_pos c2, if_pos (prefix_snoc.mpr (Or.inr c2))]
        · rw [if_neg c2, if_neg (fun h => (prefix_snoc.mp h).elim c c2)]
  · right
    have h1 : get fs1 (q ++ [n]) = some .dir := h0.trans h
    refine ⟨?_, hs, ?_⟩
    · unfold mkdir
      rw [canon_plain hs false hp.1 hp.2 hl hc h1 (Or.inl rfl)]
      simp only [h1]
    · intro r
      by_cases c : r = q ++ [n]
      · rw [if_pos (prefix_snoc.mpr (Or.inl c)), c, h1]
      · rw [hg]
        by_cases c2 : r <+: q
        · rw [if_pos c2, if_pos (prefix_snoc.mpr (Or.inr c2))]
        · rw [if_neg c2, if_neg (fun h => (prefix_snoc.mp h).elim c c2)]

theorem loop_app : ∀ (a : Str) (fs : FS) (pre b : Str),
    mkdirLoop fs pre (a ++ b) =
      mkdirLoop (mkdirLoop fs pre a).1 (mkdirLoop fs pre a).2 b
  | [], fs, pre, b => by rw [mkdirLoop, List.nil_append]
  | c :: a, fs, pre, b => by
    rw [List.cons_append, mkdirLoop, mkdirLoop]
    by_cases h : c = 47 ∨ c = 92
    · rw [if_pos h, if_pos h]; exact loop_app a _ _ b
    · rw [if_neg h, if_neg h]; exact loop_app a _ _ b

theorem loop_name : ∀ (n : Str) (fs : FS) (pre : Str), 47 ∉ n → 92 ∉ n →
    mkdirLoop fs pre n = (fs, pre ++ n)
  | [], fs, pre, _, _ => by rw [mkdirLoop, List.append_nil]
  | c :: n, fs, pre, h1, h2 => by
    rw [mkdirLoop, if_neg, loop_name n _ _ (fun h => h1 (List.mem_cons_of_mem _ h))
      (fun h => h2 (List.mem_cons_of_mem _ h)), List.append_assoc]
    · rfl
    · rintro (h | h)
      · exact h1 (by rw [h]; exact List.mem_cons_self)
      · exact h2 (by rw [h]; exact List.mem_cons_self)

/-- `lead` is nothing or the `/` of an absolute path. -/
theorem comps_lead {lead : Str} (h : lead = [] ∨ lead = [47]) (s : Str) :
    comps (lead ++ s) = comps s := by
  rcases h with h | h
  · rw [h]; rfl
  · rw [h]
    have key : splitAt 47 (47 :: s) = [] :: splitAt 47 s := by rw [splitAt]; exact if_pos rfl
    unfold comps
    rw [List.singleton_append, key]
    rfl

theorem lead_plain {lead : Str} (h : lead = [] ∨ lead = [47]) {r : Path} (hr : r ≠ [])
    (hg : ∀ n ∈ r, GoodName n) : Plain (lead ++ path r) := by
  have h1 := path_clean r hg
  have h2 : path r ≠ [] := fun e => hr ((path_nil hg).mp e)
  rcases h with h | h
  · rw [h]; exact ⟨h1, h2⟩
  · rw [h]
    refine ⟨?_, by simp⟩
    intro hm
    rcases List.mem_cons.mp hm with hm | hm
    · exact absurd hm (by decide)
    · exact h1 hm

theorem makeDir_step {fs fs1 : FS} {p : Str} {q : Path} {n : Name} (hm : Made fs fs1 q)
    (hf : Free fs (q ++ [n])) (hn : GoodName n) (hp : Plain p) (hl : p.length < pathMax)
    (hc : comps p = q ++ [n]) : Made fs (makeDir fs1 p).2 (q ++ [n]) := by
  unfold makeDir
  rcases mkdir_step hm hf hn hp hl hc with ⟨fs2, h1, h2⟩ | ⟨h1, h2⟩
  · rw [h1]; exact h2
  · rw [h1]; exact h2

theorem path_len_snoc (r : Path) (n : Name) : (path r).length ≤ (path (r ++ [n])).length := by
  by_cases h : r = []
  · rw [h]; exact Nat.zero_le _
  · rw [path_snoc r n h, List.length_append]; omega

theorem loop_made {lead : Str} (hle : lead = [] ∨ lead = [47]) {fs : FS} (hs : Sound fs)
    (r : Path) : r ≠ [] → (∀ n ∈ r, GoodName n ∧ 92 ∉ n) → Free fs r →
    (lead ++ path r).length < pathMax →
    ∃ fs1, mkdirLoop fs lead (path r) = (fs1, lead ++ path r) ∧ Made fs fs1 r.dropLast := by
  refine snoc_induct (P := fun r => r ≠ [] → (∀ n ∈ r, GoodName n ∧ 92 ∉ n) → Free fs r →
    (lead ++ path r).length < pathMax →
    ∃ fs1, mkdirLoop fs lead (path r) = (fs1, lead ++ path r) ∧ Made fs fs1 r.dropLast) ?_ ?_ r
  · intro h; exact absurd rfl h
  · intro r n ih _ hg hf hl
    have hn := hg n (by simp)
    rw [List.dropLast_concat]
    by_cases hr : r = []
    · subst hr
      exact ⟨fs, loop_name n fs lead hn.1.2.2.2.1 hn.2, made_nil hs⟩
    · have hg' : ∀ m ∈ r, GoodName m ∧ 92 ∉ m := fun m hm => hg m (List.mem_append_left _ hm)
      have hl' : (lead ++ path r).length < pathMax := by
        have := path_len_snoc r n
        rw [List.length_append] at hl ⊢
        omega
      obtain ⟨fs1, h1, h2⟩ := ih hr hg'
        (fun x hx => hf x (hx.trans (List.prefix_append _ _))) hl'
      rcases List.eq_nil_or_concat r with h' | ⟨q, m, h'⟩
      · exact absurd h' hr
      · rw [List.concat_eq_append] at h'
        have hgg : ∀ m ∈ r, GoodName m := fun m hm => (hg' m hm).1
        have hstep : Made fs (makeDir fs1 (lead ++ path r)).2 (q ++ [m]) := by
          refine makeDir_step (n := m) ?_ ?_ (hgg m (by rw [h']; simp))
            (lead_plain hle hr hgg) hl' ?_
          · rw [h', List.dropLast_concat] at h2; exact h2
          · rw [← h']; exact fun x hx => hf x (hx.trans (List.prefix_append _ _))
          · rw [comps_lead hle, comps_path r hgg, h']
        refine ⟨(makeDir fs1 (lead ++ path r)).2, ?_, by rw [h']; rw [h'] at hstep; exact hstep⟩
        rw [path_snoc r n hr, loop_app, h1]
        simp only
        rw [mkdirLoop, if_pos (Or.inl rfl), loop_name n _ _ hn.1.2.2.2.1 hn.2]
        simp

end Files

/-- The text of a path, relative or absolute, whose names have no backslash and on whose way there is
no file and no symbolic link: the call succeeds, all directories on the way exist, and nothing else is
changed.  Missing: files at the end of the path, for which the statement is false. -/
theorem C217_partial (fs : FS) (lead : Str) (r : Path) (hs : Sound fs)
    (hle : lead = [] ∨ lead = lit "/") (hr : r ≠ []) (hg : ∀ n ∈ r, GoodName n ∧ 92 ∉ n)
    (hf : Free fs r) (hl : (lead ++ path r).length < 4096) :
    (makeDirAll fs (lead ++ path r)).1 = true ∧
      ∀ s, get (makeDirAll fs (lead ++ path r)).2 s = if s <+: r then some .dir else get fs s := by
  have hle : lead = [] ∨ lead = [47] := hle
  have hgg : ∀ m ∈ r, GoodName m := fun m hm => (hg m hm).1
  have hp := lead_plain hle hr hgg
  obtain ⟨fs1, h1, h2⟩ := loop_made hle hs r hr hg hf hl
  -- the first byte is not looked at
  have hfirst : mkdirLoop fs ((lead ++ path r).take 1) ((lead ++ path r).drop 1) =
      (fs1, lead ++ path r) := by
    rcases hle with h | h
    · rw [h, List.nil_append] at h1 ⊢
      rw [← h1]
      cases hx : path r with
      | nil => rfl
      | cons c t =>
        rw [List.take_succ_cons, List.take_zero, List.drop_succ_cons, List.drop_zero, mkdirLoop,
          if_neg, List.nil_append]
        cases r with
        | nil => exact absurd rfl hr
        | cons m r =>
          have hm := hg m (by simp)
          have hcm : c ∈ m := by
            cases m with
            | nil => exact absurd rfl hm.1.1
            | cons c' m =>
              cases r with
              | nil => rw [path] at hx; cases hx; exact List.mem_cons_self
              | cons k r => rw [path] at hx; cases hx; exact List.mem_cons_self
          rintro (h | h)
          · exact hm.1.2.2.2.1 (h ▸ hcm)
          · exact hm.2 (h ▸ hcm)
    · rw [h] at h1 ⊢
      exact h1
  rcases List.eq_nil_or_concat r with h' | ⟨q, m, h'⟩
  · exact absurd h' hr
  · rw [List.concat_eq_append] at h'
    have hstep := mkdir_step (fs := fs) (fs1 := fs1) (p := lead ++ path r) (q := q) (n := m)
      (by rw [h', List.dropLast_concat] at h2; exact h2) (by rw [← h']; exact hf)
      (hgg m (by rw [h']; simp)) hp hl (by rw [comps_lead hle, comps_path r hgg, h'])
    have hne : ¬ (lead ++ path r = [] ∨ pathBuf ≤ (lead ++ path r).length) := by
      rintro (h | h)
      · exact hp.2 h
      · rw [pathBuf] at h; omega
    unfold makeDirAll
    rw [if_neg hne, cstr_eq hp.1]
    simp only [hfirst]
    rcases hstep with ⟨fs2, h3, h4⟩ | ⟨h3, h4⟩
    · rw [h3, ← h'] at *
      exact ⟨rfl, h4.2⟩
    · rw [h3, ← h'] at *
      exact ⟨rfl, h4.2⟩

example : makeDirAll oneFile (lit "x/y") =
    (true, [([lit "a"], .file (lit "data")), ([lit "x"], .dir), ([lit "x", lit "y"], .dir)]) := by
  decide +kernel
example : makeDirAll oneFile (lit "/x\\y/") =
    (true, [([lit "a"], .file (lit "data")), ([lit "x"], .dir), ([lit "x", lit "y"], .dir)]) := by
  decide +kernel
example : (makeDirAll oneFile (lit "a/y")).1 = false := by decide +kernel

end Verif.Props

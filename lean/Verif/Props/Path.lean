import Verif.Model.Path
import Verif.Props.Strings

/-! C45, C108: paths of the io module. C39, C60, C107: the path checks of the CLI. -/
namespace Verif.Props
open Verif Verif.Str Verif.Path

/-! ### Where a path leads -/

/-- A place in the file system without links: from the root or from the working directory, so many
levels up and then down along the names. -/
structure Loc where
  abs : Bool
  ups : Nat
  names : List Str
  deriving DecidableEq

/-- Following one component; the parent of the root is the root. -/
def walk (l : Loc) (c : Str) : Loc :=
  if c = [] ∨ c = lit "." then l
  else if c = lit ".." then
    if l.names = [] then (if l.abs then l else { l with ups := l.ups + 1 })
    else { l with names := l.names.dropLast }
  else { l with names := l.names ++ [c] }

/-- The components of a path; `cur` is the part of the first one already read. -/
def comps (sep : Byte → Bool) (cur : Str) : Str → List Str
  | [] => [cur]
  | c :: r => if sep c then cur :: comps sep [] r else comps sep (cur ++ [c]) r

/-- Following a path from a place. -/
def follow (sep : Byte → Bool) (l : Loc) (p : Str) : Loc := (comps sep [] p).foldl walk l

def startsSep (sep : Byte → Bool) : Str → Bool
  | [] => false
  | c :: _ => sep c

/-- The place of a path. -/
def locOf (sep : Byte → Bool) (p : Str) : Loc := follow sep ⟨startsSep sep p, 0, []⟩ p

/-- Separators of the io module. -/
def anySep (c : Byte) : Bool := decide (c = ch '/' ∨ c = ch '\\')
/-- Separators of Unix. -/
def slash (c : Byte) : Bool := decide (c = ch '/')

/-- The shortest text of a place. -/
def render (l : Loc) : Str :=
  if l.abs = false ∧ l.ups = 0 ∧ l.names = [] then lit "."
  else (if l.abs then lit "/" else []) ++ joined (lit "/") (List.replicate l.ups (lit "..") ++ l.names)

def GoodName (sep : Byte → Bool) (n : Str) : Prop :=
  n ≠ [] ∧ n ≠ lit "." ∧ n ≠ lit ".." ∧ ∀ c ∈ n, sep c = false

structure Loc.WF (sep : Byte → Bool) (l : Loc) : Prop where
  root : l.abs = true → l.ups = 0
  good : ∀ n ∈ l.names, GoodName sep n

theorem comps_nosep {sep : Byte → Bool} : ∀ (p cur : Str), (∀ c ∈ cur, sep c = false) →
    ∀ n ∈ comps sep cur p, ∀ c ∈ n, sep c = false
  | [], cur, h, n, hn => by
    rw [comps, List.mem_singleton] at hn
    rw [hn]; exact h
  | c :: r, cur, h, n, hn => by
    rw [comps] at hn
    split at hn
    · rw [List.mem_cons] at hn
      rcases hn with rfl | hn
      · exact h
      · exact comps_nosep r [] (by simp) n hn
    · rename_i hc
      refine comps_nosep r (cur ++ [c]) ?_ n hn
      intro x hx
      rw [List.mem_append, List.mem_singleton] at hx
      rcases hx with hx | rfl
      · exact h x hx
      · simpa using hc

theorem walk_wf {sep : Byte → Bool} {l : Loc} {c : Str} (h : l.WF sep) (hc : ∀ x ∈ c, sep x = false) :
    (walk l c).WF sep := by
  unfold walk
  split
  · exact h
  · rename_i h1
    rw [not_or] at h1
    split
    · split
      · split
        · exact h
        · rename_i h2
          exact ⟨fun e => absurd e h2, h.good⟩
      · exact ⟨h.root, fun n hn => h.good n ((List.dropLast_sublist _).subset hn)⟩
    · rename_i h2
      refine ⟨h.root, fun n hn => ?_⟩
      rw [List.mem_append, List.mem_singleton] at hn
      rcases hn with hn | rfl
      · exact h.good n hn
      · exact ⟨h1.1, h1.2, h2, hc⟩

theorem walk_abs (l : Loc) (c : Str) : (walk l c).abs = l.abs := by
  unfold walk
  split
  · rfl
  · split
    · split
      · split <;> rfl
      · rfl
    · rfl

theorem foldl_walk_wf {sep : Byte → Bool} (cs : List Str) : ∀ {l : Loc}, l.WF sep →
    (∀ n ∈ cs, ∀ c ∈ n, sep c = false) → (cs.foldl walk l).WF sep := by
  induction cs with
  | nil => intro l h _; exact h
  | cons c r ih =>
    intro l h hc
    exact ih (walk_wf h (hc c (by simp))) (fun n hn => hc n (List.mem_cons_of_mem _ hn))

theorem foldl_walk_abs (cs : List Str) : ∀ l : Loc, (cs.foldl walk l).abs = l.abs := by
  induction cs with
  | nil => intro l; rfl
  | cons c r ih => intro l; rw [List.foldl_cons, ih, walk_abs]

theorem locOf_wf (sep : Byte → Bool) (p : Str) : (locOf sep p).WF sep :=
  foldl_walk_wf _ ⟨fun _ => rfl, by simp⟩ (comps_nosep p [] (by simp))

theorem comps_append {sep : Byte → Bool} {s : Byte} (hs : sep s = true) (y : Str) : ∀ (x cur : Str),
    comps sep cur (x ++ s :: y) = comps sep cur x ++ comps sep [] y
  | [], cur => by
    show comps sep cur (s :: y) = cur :: comps sep [] y
    rw [comps, if_pos hs]
  | c :: r, cur => by
    rw [List.cons_append, comps, comps]
    split
    · rw [comps_append hs y r []]; rfl
    · exact comps_append hs y r _

theorem comps_plain {sep : Byte → Bool} : ∀ (n cur : Str), (∀ c ∈ n, sep c = false) →
    comps sep cur n = [cur ++ n]
  | [], cur, _ => by rw [comps, List.append_nil]
  | c :: r, cur, h => by
    rw [comps, if_neg (by simp [h c (by simp)]),
      comps_plain r (cur ++ [c]) (fun x hx => h x (List.mem_cons_of_mem _ hx))]
    simp

theorem follow_append {sep : Byte → Bool} {s : Byte} (hs : sep s = true) (l : Loc) (x y : Str) :
    follow sep l (x ++ s :: y) = follow sep (follow sep l x) y := by
  rw [follow, comps_append hs, List.foldl_append]; rfl

theorem walk_nil (l : Loc) : walk l [] = l := by rw [walk, if_pos (Or.inl rfl)]

theorem follow_nil (sep : Byte → Bool) (l : Loc) : follow sep l [] = l := by
  rw [follow, comps, List.foldl_cons, walk_nil]; rfl

theorem follow_plain {sep : Byte → Bool} {n : Str} (h : ∀ c ∈ n, sep c = false) (l : Loc) :
    follow sep l n = walk l n := by
  rw [follow, comps_plain n [] h]; rfl

theorem comps_joined {sep : Byte → Bool} (h47 : sep (ch '/') = true) : ∀ (ps : List Str), ps ≠ [] →
    (∀ n ∈ ps, ∀ c ∈ n, sep c = false) → comps sep [] (joined (lit "/") ps) = ps
  | [], h, _ => absurd rfl h
  | [p], _, h => by
    rw [joined, comps_plain p [] (h p (by simp))]; rfl
  | p :: q :: r, _, h => by
    rw [joined]
    show comps sep [] (p ++ [ch '/'] ++ joined (lit "/") (q :: r)) = _
    rw [List.append_assoc]
    show comps sep [] (p ++ ch '/' :: joined (lit "/") (q :: r)) = _
    rw [comps_append h47, comps_plain p [] (h p (by simp)),
      comps_joined h47 (q :: r) (by simp) (fun n hn => h n (List.mem_cons_of_mem _ hn))]
    rfl

theorem foldl_ups (n : Nat) : ∀ k, (List.replicate n (lit "..")).foldl walk ⟨false, k, []⟩ =
    ⟨false, k + n, []⟩ := by
  induction n with
  | zero => intro k; rfl
  | succ n ih =>
    intro k
    rw [List.replicate_succ, List.foldl_cons]
    have : walk ⟨false, k, []⟩ (lit "..") = ⟨false, k + 1, []⟩ := by
      rw [walk, if_neg (by decide), if_pos rfl, if_pos rfl, if_neg (by simp)]
    rw [this, ih, show k + 1 + n = k + (n + 1) from by omega]

theorem foldl_names {sep : Byte → Bool} (ns : List Str) : ∀ l : Loc, (∀ n ∈ ns, GoodName sep n) →
    ns.foldl walk l = { l with names := l.names ++ ns } := by
  induction ns with
  | nil => intro l _; simp
  | cons n r ih =>
    intro l h
    obtain ⟨h1, h2, h3, -⟩ := h n (by simp)
    rw [List.foldl_cons, ih _ (fun x hx => h x (List.mem_cons_of_mem _ hx))]
    rw [walk, if_neg (by rintro (e | e); exacts [h1 e, h2 e]), if_neg h3]
    simp

theorem dots_nosep {sep : Byte → Bool} (h46 : sep (ch '.') = false) {n : Str}
    (hn : n = lit "." ∨ n = lit "..") : ∀ c ∈ n, sep c = false := by
  intro c hc
  have : c = ch '.' := by
    rcases hn with rfl | rfl
    · simpa [lit] using hc
    · simpa [lit] using hc
  rw [this]; exact h46

theorem locOf_render {sep : Byte → Bool} (h47 : sep (ch '/') = true) (h46 : sep (ch '.') = false)
    {l : Loc} (h : l.WF sep) : locOf sep (render l) = l := by
  unfold render
  obtain ⟨a, u, ns⟩ := l
  by_cases h0 : a = false ∧ u = 0 ∧ ns = []
  · rw [if_pos h0]
    obtain ⟨rfl, rfl, rfl⟩ := h0
    rw [locOf, follow_plain (dots_nosep h46 (Or.inl rfl))]
    show walk ⟨sep (ch '.'), 0, []⟩ (lit ".") = _
    rw [h46]; decide
  · rw [if_neg h0]
    have hall : ∀ n ∈ List.replicate u (lit "..") ++ ns, ∀ c ∈ n, sep c = false := by
      intro n hn
      rw [List.mem_append] at hn
      rcases hn with hn | hn
      · exact dots_nosep h46 (Or.inr (List.eq_of_mem_replicate hn))
      · exact (h.good n hn).2.2.2
    cases a with
    | true =>
      have hu : u = 0 := h.root rfl
      subst hu
      simp only [if_true, List.replicate_zero, List.nil_append] at hall ⊢
      show locOf sep (ch '/' :: joined (lit "/") ns) = _
      rw [locOf]
      show follow sep ⟨sep (ch '/'), 0, []⟩ ([] ++ ch '/' :: joined (lit "/") ns) = _
      rw [follow_append h47, h47, follow_nil]
      cases ns with
      | nil => rw [joined, follow_nil]
      | cons n r =>
        rw [follow, comps_joined h47 _ (by simp) hall, foldl_names _ _ h.good]; rfl
    | false =>
      simp only [true_and] at h0
      simp only [Bool.false_eq_true, if_false, List.nil_append]
      have hne : List.replicate u (lit "..") ++ ns ≠ [] := by
        intro e
        rw [List.append_eq_nil_iff, List.replicate_eq_nil_iff] at e
        exact h0 e
      rw [locOf]
      have hst : startsSep sep (joined (lit "/") (List.replicate u (lit "..") ++ ns)) = false := by
        cases hl : List.replicate u (lit "..") ++ ns with
        | nil => exact absurd hl hne
        | cons p r =>
          have hp := hall p (by rw [hl]; simp)
          have hpn : p ≠ [] := by
            have : p ∈ List.replicate u (lit "..") ++ ns := by rw [hl]; simp
            rw [List.mem_append] at this
            rcases this with hm | hm
            · rw [List.eq_of_mem_replicate hm]; decide
            · exact (h.good p hm).1
          cases p with
          | nil => exact absurd rfl hpn
          | cons c p' => cases r <;> exact hp c (by simp)
      rw [hst, follow, comps_joined h47 _ hne hall, List.foldl_append, foldl_ups,
        foldl_names _ _ h.good]
      simp

/-! ### The stacks of segments -/

/-- The segments on the stack are those of the place. -/
def Rep (l : Loc) (st : List Str) : Prop :=
  st.reverse = List.replicate l.ups (lit "..") ++ l.names

theorem Rep.head {sep : Byte → Bool} {l : Loc} {s : Str} {st : List Str} (hw : l.WF sep)
    (h : Rep l (s :: st)) :
    (s = lit ".." ∧ l.names = [] ∧ l.abs = false ∧ 0 < l.ups) ∨
    (s ≠ lit ".." ∧ l.names ≠ [] ∧ Rep { l with names := l.names.dropLast } st) := by
  unfold Rep at *
  rw [List.reverse_cons] at h
  by_cases hn : l.names = []
  · left
    rw [hn, List.append_nil] at h
    have hs : s ∈ List.replicate l.ups (lit "..") := by rw [← h]; simp
    have hu : 0 < l.ups := by
      rcases Nat.eq_zero_or_pos l.ups with e | e
      · rw [e] at hs; cases hs
      · exact e
    refine ⟨List.eq_of_mem_replicate hs, hn, ?_, hu⟩
    cases ha : l.abs with
    | false => rfl
    | true => have := hw.root ha; omega
  · right
    have hlast := congrArg List.getLast? h
    rw [List.getLast?_append, List.getLast?_append] at hlast
    have hs : l.names.getLast? = some s := by
      cases hg : l.names.getLast? with
      | none => exact absurd (List.getLast?_eq_none_iff.1 hg) hn
      | some x => rw [hg] at hlast; simp at hlast; rw [hlast]
    have hmem := List.mem_of_getLast? hs
    refine ⟨(hw.good s hmem).2.2.1, hn, ?_⟩
    have hd := congrArg List.dropLast h
    rw [List.dropLast_concat, List.dropLast_append_of_ne_nil hn] at hd
    exact hd

theorem walk_def (l : Loc) (c : Str) : walk l c =
    if c = [] ∨ c = [46] then l
    else if c = [46, 46] then
      if l.names = [] then (if l.abs then l else { l with ups := l.ups + 1 })
      else { l with names := l.names.dropLast }
    else { l with names := l.names ++ [c] } := rfl

theorem step_nil (a : Bool) (st : List Str) : step a [] st = .ok st := rfl

theorem cleanStep_rep {sep : Byte → Bool} {l : Loc} {st : List Str} (hw : l.WF sep) (h : Rep l st)
    (seg : Str) : Rep (walk l seg) (cleanStep l.abs st seg) := by
  rw [walk_def]
  unfold cleanStep
  by_cases h1 : seg = [] ∨ seg = [46]
  · rw [if_pos h1, if_pos h1]; exact h
  · rw [if_neg h1, if_neg h1]
    by_cases h2 : seg = [46, 46]
    · rw [if_pos h2, if_pos h2]
      cases st with
      | nil =>
        have hr : l.ups = 0 ∧ l.names = [] := by
          unfold Rep at h
          rw [List.reverse_nil, eq_comm, List.append_eq_nil_iff, List.replicate_eq_nil_iff] at h
          exact h
        rw [if_pos hr.2]
        simp only
        cases ha : l.abs with
        | true => simp only [if_true]; exact h
        | false =>
          simp only [Bool.false_eq_true, if_false]
          unfold Rep
          simp only [hr.1, hr.2, h2]
          rfl
      | cons s st' =>
        simp only
        rcases h.head hw with ⟨e, hn, ha, -⟩ | ⟨e, hn, hr⟩
        · change s = [46, 46] at e
          rw [if_pos hn, ha, if_neg (by decide), if_pos e]
          unfold Rep at *
          simp only
          rw [List.reverse_cons, h, hn, h2, List.replicate_succ']
          simp only [List.append_nil]
          rfl
        · change s ≠ [46, 46] at e
          rw [if_neg hn, if_neg e]; exact hr
    · rw [if_neg h2, if_neg h2]
      unfold Rep at *
      rw [List.reverse_cons, h, List.append_assoc]

theorem cleanStep_length (a : Bool) (st : List Str) (seg : Str) :
    (cleanStep a st seg).length ≤ st.length + (if seg = [] then 0 else 1) := by
  unfold cleanStep
  by_cases h0 : seg = []
  · rw [if_pos (Or.inl h0), if_pos h0]; omega
  · rw [if_neg h0]
    split
    · omega
    · split
      · split
        · split <;> simp
        · split <;> simp <;> omega
      · simp

theorem fold_rep {sep : Byte → Bool} (cs : List Str) : ∀ {l : Loc} {st : List Str}, l.WF sep → Rep l st →
    (∀ n ∈ cs, ∀ c ∈ n, sep c = false) → Rep (cs.foldl walk l) (cs.foldl (cleanStep l.abs) st) := by
  induction cs with
  | nil => intro l st _ h _; exact h
  | cons c r ih =>
    intro l st hw h hc
    rw [List.foldl_cons, List.foldl_cons]
    have := ih (walk_wf hw (hc c (by simp))) (cleanStep_rep hw h c)
      (fun n hn => hc n (List.mem_cons_of_mem _ hn))
    rwa [walk_abs] at this

theorem step_eq {sep : Byte → Bool} {l : Loc} {st : List Str} (hw : l.WF sep) (h : Rep l st)
    (hl : st.length < maxSegments) (seg : Str) : step l.abs seg st = .ok (cleanStep l.abs st seg) := by
  unfold step cleanStep
  by_cases h0 : seg = []
  · rw [if_pos h0, if_pos (Or.inl h0)]
  · rw [if_neg h0]
    by_cases h1 : seg = [46]
    · rw [if_pos h1, if_pos (Or.inr h1)]
    · have h3 : ¬ (seg = [] ∨ seg = [46]) := by rintro (e | e); exacts [h0 e, h1 e]
      rw [if_neg h1, if_neg h3]
      by_cases h2 : seg = [46, 46]
      · rw [if_pos h2, if_pos h2]
        cases st with
        | nil =>
          simp only
          cases l.abs <;> rfl
        | cons s st' =>
          simp only
          rcases h.head hw with ⟨e, -, ha, -⟩ | ⟨e, -, -⟩
          · change s = [46, 46] at e
            rw [if_neg (not_not_intro e), ha, if_pos (by rfl), if_pos hl, if_pos e]
          · change s ≠ [46, 46] at e
            rw [if_pos e, if_neg e]
      · rw [if_neg h2, if_neg h2, if_pos hl]

theorem glueSlash_eq : ∀ ps : List Str, glueSlash ps = joined (lit "/") ps
  | [] => rfl
  | [_] => rfl
  | p :: q :: r => by
    rw [glueSlash, joined, glueSlash_eq (q :: r), List.append_assoc]; rfl

theorem joined_ne {sep : Byte → Bool} {l : Loc} (hw : l.WF sep) (h : ¬ (l.ups = 0 ∧ l.names = [])) :
    joined (lit "/") (List.replicate l.ups (lit "..") ++ l.names) ≠ [] := by
  cases hl : List.replicate l.ups (lit "..") ++ l.names with
  | nil =>
    rw [List.append_eq_nil_iff, List.replicate_eq_nil_iff] at hl
    exact absurd hl h
  | cons p r =>
    have hpn : p ≠ [] := by
      have : p ∈ List.replicate l.ups (lit "..") ++ l.names := by rw [hl]; simp
      rw [List.mem_append] at this
      rcases this with hm | hm
      · rw [List.eq_of_mem_replicate hm]; decide
      · exact (hw.good p hm).1
    cases r with
    | nil => exact hpn
    | cons q r => rw [joined]; intro e; simp at e; exact hpn e.1

theorem out_eq {sep : Byte → Bool} {l : Loc} {st : List Str} (hw : l.WF sep) (h : Rep l st) :
    (if (if l.abs then [47] else []) ++ glueSlash st.reverse = ([] : Str) then [46]
      else (if l.abs then [47] else []) ++ glueSlash st.reverse) = render l := by
  rw [glueSlash_eq, h]
  unfold render
  by_cases h0 : l.ups = 0 ∧ l.names = []
  · cases ha : l.abs with
    | true => simp [h0, joined, lit, ch]
    | false => simp [h0, joined, lit, ch]
  · have := joined_ne hw h0
    have h1 : ¬ (if l.abs = true then [47] else ([] : Str)) ++
        joined (lit "/") (List.replicate l.ups (lit "..") ++ l.names) = [] := by simp [this]
    have h2 : ¬ (l.abs = false ∧ l.ups = 0 ∧ l.names = []) := fun e => h0 e.2
    rw [if_neg h1, if_neg h2]
    rfl

/-! ### C45 -/

/-- A normal path: no empty components, no ".", and ".." only at the front of a relative path. -/
def Normal (q : Str) : Prop :=
  q = lit "." ∨ q = lit "/" ∨
  ∃ (abs : Bool) (ups : Nat) (names : List Str), (abs = true → ups = 0) ∧
    (∀ n ∈ names, n ≠ [] ∧ n ≠ lit "." ∧ n ≠ lit ".." ∧ ch '/' ∉ n ∧ ch '\\' ∉ n) ∧
    q = (if abs then lit "/" else []) ++ joined (lit "/") (List.replicate ups (lit "..") ++ names)

/-- C45 as claimed. -/
def C45_statement : Prop :=
  ∀ p : Str, ∃ q, normalize p = .ok q ∧ Normal q ∧ locOf anySep q = locOf anySep p ∧
    normalize q = .ok q

/-- 257 times "../" writes past the end of the array of segments; the 257th name is dropped. -/
theorem C45_witness :
    normalize (List.replicate 257 (lit "../")).flatten = .ub ∧
    normalize ((List.replicate 256 (lit "a/")).flatten ++ lit "b") =
      normalize (List.replicate 256 (lit "a/")).flatten := by decide +kernel

theorem C45_fails : ¬ C45_statement := by
  intro h
  obtain ⟨q, h1, -⟩ := h (List.replicate 257 (lit "../")).flatten
  rw [C45_witness.1] at h1
  cases h1

theorem anySep_iff (c : Byte) : anySep c = isSep c := by
  have : ∀ n : Fin 256, anySep (BitVec.ofFin n) = isSep (BitVec.ofFin n) := by decide +kernel
  exact this c.toFin

theorem mapSep_ne (c : Byte) : (if c = 92 then (47 : Byte) else c) = 47 ↔ anySep c = true := by
  have : ∀ n : Fin 256, ((if (BitVec.ofFin n : Byte) = 92 then (47 : Byte) else BitVec.ofFin n) = 47 ↔
    anySep (BitVec.ofFin n) = true) := by decide +kernel
  exact this c.toFin

theorem segLoop_eq {a : Bool} : ∀ (p cur : Str) (l : Loc) (st : List Str), l.abs = a → l.WF anySep → Rep l st →
    (∀ c ∈ cur, anySep c = false) →
    st.length + ((comps anySep cur p).filter (fun s => s ≠ [])).length ≤ maxSegments →
    segLoop a (p.map fun c => if c = 92 then 47 else c) cur st =
      .ok ((comps anySep cur p).foldl (cleanStep a) st)
  | [], cur, l, st, ha, hw, hr, _, hb => by
    subst ha
    rw [List.map_nil, segLoop, comps]
    rw [comps] at hb
    show step l.abs cur st = .ok (cleanStep l.abs st cur)
    by_cases h0 : cur = []
    · rw [h0]; rfl
    · refine step_eq hw hr ?_ cur
      rw [List.filter_cons_of_pos (by simpa using h0)] at hb
      simp at hb
      omega
  | c :: r, cur, l, st, ha, hw, hr, hcur, hb => by
    rw [List.map_cons, segLoop, comps]
    rw [comps] at hb
    by_cases hc : anySep c = true
    · rw [if_pos ((mapSep_ne c).2 hc), if_pos hc, List.foldl_cons]
      rw [if_pos hc] at hb
      subst ha
      have hs : step l.abs cur st = .ok (cleanStep l.abs st cur) := by
        by_cases h0 : cur = []
        · rw [h0]; rfl
        · refine step_eq hw hr ?_ cur
          rw [List.filter_cons_of_pos (by simpa using h0)] at hb
          simp at hb
          omega
      rw [hs]
      show segLoop l.abs _ [] _ = _
      refine segLoop_eq r [] (walk l cur) _ (walk_abs l cur) (walk_wf hw hcur) (cleanStep_rep hw hr cur)
        (by simp) ?_
      have hlen := cleanStep_length l.abs st cur
      by_cases h0 : cur = []
      · rw [List.filter_cons_of_neg (by simpa using h0)] at hb
        rw [if_pos h0] at hlen; omega
      · rw [List.filter_cons_of_pos (by simpa using h0), List.length_cons] at hb
        rw [if_neg h0] at hlen; omega
    · have hm : ¬ (if c = 92 then (47 : Byte) else c) = 47 := fun e => hc ((mapSep_ne c).1 e)
      rw [if_neg hm, if_neg hc]
      rw [if_neg hc] at hb
      have hcc : (if c = 92 then (47 : Byte) else c) = c := by
        rw [if_neg]
        rintro rfl
        exact hc (by decide)
      rw [hcc]
      refine segLoop_eq r (cur ++ [c]) l st ha hw hr ?_ hb
      intro x hx
      rw [List.mem_append, List.mem_singleton] at hx
      rcases hx with hx | rfl
      · exact hcur x hx
      · simpa using hc

theorem takeWhile_self {p : Byte → Bool} {s : Str} (h : ∀ c ∈ s, p c = true) : s.takeWhile p = s := by
  induction s with
  | nil => rfl
  | cons c r ih =>
    rw [List.takeWhile_cons, if_pos (h c (by simp)), ih (fun x hx => h x (List.mem_cons_of_mem _ hx))]

/-- The number of components that are not empty. -/
def segments (p : Str) : Nat := ((comps anySep [] p).filter (fun s => s ≠ [])).length

theorem normalize_eq {p : Str} (h0 : 0 ∉ p) (h : segments p ≤ 256) :
    normalize p = .ok (render (locOf anySep p)) := by
  unfold normalize
  by_cases hp : p = []
  · subst hp; decide
  · rw [if_neg hp]
    have hbuf : (p.map fun c => if c = 92 then (47 : Byte) else c).takeWhile (fun c => c != 0) =
        p.map fun c => if c = 92 then 47 else c := by
      refine takeWhile_self ?_
      intro c hc
      rw [List.mem_map] at hc
      obtain ⟨x, hx, rfl⟩ := hc
      split
      · decide
      · have : x ≠ 0 := fun e => h0 (e ▸ hx)
        simpa using this
    have hab : ((p.map fun c => if c = 92 then (47 : Byte) else c).head? == some 47) = startsSep anySep p := by
      cases p with
      | nil => exact absurd rfl hp
      | cons c r =>
        rw [List.map_cons, List.head?_cons, startsSep, Bool.eq_iff_iff, ← mapSep_ne c]
        simp
    simp only [hbuf, hab]
    have hw : Loc.WF anySep ⟨startsSep anySep p, 0, []⟩ := ⟨fun _ => rfl, by simp⟩
    rw [segLoop_eq p [] ⟨startsSep anySep p, 0, []⟩ [] rfl hw rfl (by simp) (by
      show 0 + segments p ≤ 256
      omega)]
    show Outcome.ok _ = _
    have hr := fold_rep (comps anySep [] p) hw (show Rep ⟨startsSep anySep p, 0, []⟩ [] from rfl)
      (comps_nosep p [] (by simp))
    have ho := out_eq (foldl_walk_wf _ hw (comps_nosep p [] (by simp))) hr
    rw [foldl_walk_abs] at ho
    exact congrArg Outcome.ok ho

theorem mem_joined {sep : Str} {c : Byte} : ∀ {ps : List Str}, c ∈ joined sep ps →
    c ∈ sep ∨ ∃ p ∈ ps, c ∈ p
  | [], h => by cases h
  | [p], h => Or.inr ⟨p, by simp, h⟩
  | p :: q :: r, h => by
    rw [joined, List.mem_append, List.mem_append] at h
    rcases h with (h | h) | h
    · exact Or.inr ⟨p, by simp, h⟩
    · exact Or.inl h
    · rcases mem_joined h with h | ⟨x, hx, hc⟩
      · exact Or.inl h
      · exact Or.inr ⟨x, List.mem_cons_of_mem _ hx, hc⟩

theorem mem_comps {sep : Byte → Bool} {x : Byte} : ∀ (p cur : Str), ∀ n ∈ comps sep cur p, x ∈ n →
    x ∈ cur ∨ x ∈ p
  | [], cur, n, hn, hx => by
    rw [comps, List.mem_singleton] at hn
    rw [hn] at hx; exact Or.inl hx
  | c :: r, cur, n, hn, hx => by
    rw [comps] at hn
    split at hn
    · rw [List.mem_cons] at hn
      rcases hn with rfl | hn
      · exact Or.inl hx
      · rcases mem_comps r [] n hn hx with h | h
        · cases h
        · exact Or.inr (List.mem_cons_of_mem _ h)
    · rcases mem_comps r (cur ++ [c]) n hn hx with h | h
      · rw [List.mem_append, List.mem_singleton] at h
        rcases h with h | h
        · exact Or.inl h
        · exact Or.inr (by rw [h]; simp)
      · exact Or.inr (List.mem_cons_of_mem _ h)

theorem walk_names {l : Loc} {c n : Str} (h : n ∈ (walk l c).names) : n ∈ l.names ∨ n = c := by
  unfold walk at h
  split at h
  · exact Or.inl h
  · split at h
    · split at h
      · split at h
        · exact Or.inl h
        · exact Or.inl h
      · exact Or.inl ((List.dropLast_sublist _).subset h)
    · simpa using h

theorem foldl_names_mem (cs : List Str) : ∀ {l : Loc} {n : Str}, n ∈ (cs.foldl walk l).names →
    n ∈ l.names ∨ n ∈ cs := by
  induction cs with
  | nil => intro l n h; exact Or.inl h
  | cons c r ih =>
    intro l n h
    rcases ih h with h | h
    · rcases walk_names h with h | h
      · exact Or.inl h
      · exact Or.inr (by rw [h]; simp)
    · exact Or.inr (List.mem_cons_of_mem _ h)

theorem walk_count (l : Loc) (c : Str) : (walk l c).ups + (walk l c).names.length ≤
    l.ups + l.names.length + (if c = [] then 0 else 1) := by
  unfold walk
  by_cases h0 : c = []
  · rw [if_pos (Or.inl h0), if_pos h0]; omega
  · rw [if_neg h0]
    split
    · omega
    · split
      · split
        · split
          · omega
          · simp only; omega
        · simp only [List.length_dropLast]; omega
      · simp only [List.length_append, List.length_cons, List.length_nil]; omega

theorem foldl_count (cs : List Str) : ∀ l : Loc, (cs.foldl walk l).ups + (cs.foldl walk l).names.length ≤
    l.ups + l.names.length + (cs.filter (fun s => s ≠ [])).length := by
  induction cs with
  | nil => intro l; simp
  | cons c r ih =>
    intro l
    rw [List.foldl_cons]
    have h1 := ih (walk l c)
    have h2 := walk_count l c
    by_cases h0 : c = []
    · rw [List.filter_cons_of_neg (by simpa using h0)]
      rw [if_pos h0] at h2; omega
    · rw [List.filter_cons_of_pos (by simpa using h0), List.length_cons]
      rw [if_neg h0] at h2; omega

theorem segments_render {l : Loc} (hw : l.WF anySep) (h : l.ups + l.names.length ≤ 256) :
    segments (render l) ≤ 256 := by
  have h47 : anySep (ch '/') = true := by decide
  have h46 : anySep (ch '.') = false := by decide
  have hall : ∀ n ∈ List.replicate l.ups (lit "..") ++ l.names, ∀ c ∈ n, anySep c = false := by
    intro n hn
    rw [List.mem_append] at hn
    rcases hn with hn | hn
    · exact dots_nosep h46 (Or.inr (List.eq_of_mem_replicate hn))
    · exact (hw.good n hn).2.2.2
  have hc : ∀ cs : List Str, cs.length ≤ 256 → (cs.filter (fun s => s ≠ [])).length ≤ 256 :=
    fun cs h => le_trans (List.length_filter_le _ _) h
  unfold render segments
  split
  · decide
  · by_cases hne : List.replicate l.ups (lit "..") ++ l.names = []
    · rw [hne]
      cases l.abs <;> decide
    · cases l.abs with
      | true =>
        simp only [if_true]
        show ((comps anySep [] ([] ++ ch '/' :: joined (lit "/") _)).filter _).length ≤ 256
        rw [comps_append h47, comps_joined h47 _ hne hall, List.filter_append]
        rw [List.length_append]
        have := hc _ (show (List.replicate l.ups (lit "..") ++ l.names).length ≤ 256 by simpa using h)
        have h1 : ((comps anySep [] []).filter (fun s => s ≠ ([] : Str))).length = 0 := by decide
        omega
      | false =>
        simp only [Bool.false_eq_true, if_false, List.nil_append]
        rw [comps_joined h47 _ hne hall]
        exact hc _ (by simpa using h)

theorem nul_render {l : Loc} (h : ∀ n ∈ l.names, (0 : Byte) ∉ n) : 0 ∉ render l := by
  unfold render
  split
  · decide
  · rw [List.mem_append, not_or]
    refine ⟨by cases l.abs <;> decide, fun hm => ?_⟩
    rcases mem_joined hm with hm | ⟨n, hn, hm⟩
    · revert hm; decide
    · rw [List.mem_append] at hn
      rcases hn with hn | hn
      · rw [List.eq_of_mem_replicate hn] at hm
        revert hm; decide
      · exact h n hn hm

theorem render_normal {l : Loc} (hw : l.WF anySep) : Normal (render l) := by
  unfold render
  split
  · exact Or.inl rfl
  · refine Or.inr (Or.inr ⟨l.abs, l.ups, l.names, hw.root, ?_, rfl⟩)
    intro n hn
    obtain ⟨a, b, c, d⟩ := hw.good n hn
    refine ⟨a, b, c, fun hm => ?_, fun hm => ?_⟩
    · exact absurd (d _ hm) (by decide)
    · exact absurd (d _ hm) (by decide)

/-- Paths without NUL and with at most 256 components: the result is normal, leads to the same place
and is not changed by normalising again. Missing for the full claim: longer paths, and the text after
a NUL. -/
theorem C45_partial (p : Str) (h0 : 0 ∉ p) (h : segments p ≤ 256) :
    ∃ q, normalize p = .ok q ∧ Normal q ∧ locOf anySep q = locOf anySep p ∧ normalize q = .ok q := by
  have hw := locOf_wf anySep p
  have hloc : locOf anySep (render (locOf anySep p)) = locOf anySep p :=
    locOf_render (by decide) (by decide) hw
  refine ⟨render (locOf anySep p), normalize_eq h0 h, render_normal hw, hloc, ?_⟩
  have hc := foldl_count (comps anySep [] p) ⟨startsSep anySep p, 0, []⟩
  have hq := normalize_eq (p := render (locOf anySep p)) (nul_render fun n hn hm => ?_)
    (segments_render hw (by
      have : (locOf anySep p).ups + (locOf anySep p).names.length ≤ 0 + 0 + segments p := hc
      omega))
  · rw [hloc] at hq; exact hq
  · rcases foldl_names_mem _ hn with hn | hn
    · cases hn
    · rcases mem_comps p [] n hn hm with hm | hm
      · cases hm
      · exact h0 hm

example : normalize (lit "a//b/../c/.") = .ok (lit "a/c") ∧ normalize (lit "/../x\\y") = .ok (lit "/x/y") ∧
    normalize (lit "a/../../b") = .ok (lit "../b") ∧ normalize (lit "a/..") = .ok (lit ".") := by
  decide +kernel

example : segments (lit "a//b/../c/.") = 5 := by decide +kernel

/-! ### C108 -/

/-- Where joined parts lead: an absolute part starts again. -/
def joinLoc (ps : List Str) : Loc :=
  ps.foldl (fun l p => if startsSep anySep p then locOf anySep p else follow anySep l p) ⟨false, 0, []⟩

/-- C108 as claimed: joining follows the parts one after the other, a path is the join of its dirname
and basename, and a path is absolute when it starts at the root. -/
def C108_statement : Prop :=
  (∀ ps, locOf anySep (pathJoin ps) = joinLoc ps) ∧
  (∀ p, locOf anySep (pathJoin [dirname p, basename p]) = locOf anySep p) ∧
  (∀ p, isAbsolute p = (locOf anySep p).abs)

/-- Joining "" and "a" gives the absolute path "/a"; "\a" is not absolute but is normalised to "/a". -/
theorem C108_witness : pathJoin [[], lit "a"] = lit "/a" ∧
    joinLoc [[], lit "a"] = ⟨false, 0, [lit "a"]⟩ ∧
    isAbsolute (lit "\\a") = false ∧ normalize (lit "\\a") = .ok (lit "/a") := by decide +kernel

theorem C108_fails : ¬ C108_statement := by
  intro h
  have h1 := h.1 [[], lit "a"]
  rw [C108_witness.1, C108_witness.2.1] at h1
  revert h1
  decide +kernel

theorem upToNul_eq {s : Str} (h : 0 ∉ s) : upToNul s = s := by
  refine takeWhile_self fun c hc => ?_
  have : c ≠ 0 := fun e => h (e ▸ hc)
  simpa using this

theorem endsSep_iff {s : Str} (h : endsSep s = true) : ∃ x c, s = x ++ [c] ∧ anySep c = true := by
  unfold endsSep at h
  split at h
  · cases h
  · rename_i c r hr
    refine ⟨r.reverse, c, ?_, by rw [anySep_iff]; exact h⟩
    rw [← List.reverse_reverse s, hr, List.reverse_cons]

theorem startsSep_append {sep : Byte → Bool} {x : Str} (h : x ≠ []) (y : Str) :
    startsSep sep (x ++ y) = startsSep sep x := by
  cases x with
  | nil => exact absurd rfl h
  | cons c r => rfl

/-- A separator after a separator changes nothing. -/
theorem follow_double {sep : Byte → Bool} {z y : Str} {c s : Byte} (hc : sep c = true) (hs : sep s = true)
    (l : Loc) : follow sep l ((z ++ [c]) ++ y) = follow sep l ((z ++ [c]) ++ s :: y) := by
  rw [follow_append hs, List.append_assoc, List.singleton_append, follow_append hc, follow_append hc,
    follow_nil]

theorem joinStep_spec {r seg : Str} (hr : r ≠ []) (h1 : 0 ∉ r) (h2 : 0 ∉ seg)
    (hl : r.length + seg.length + 1 ≤ int32Max) :
    locOf anySep (joinStep r seg) =
      (if startsSep anySep seg then locOf anySep seg else follow anySep (locOf anySep r) seg) ∧
    joinStep r seg ≠ [] ∧ 0 ∉ joinStep r seg ∧ (joinStep r seg).length ≤ r.length + seg.length + 1 := by
  unfold joinStep
  cases seg with
  | nil =>
    simp only
    refine ⟨?_, hr, h1, by simp⟩
    rw [startsSep, if_neg (by simp), follow_nil]
  | cons c t =>
    simp only
    by_cases hc : isSep c = true
    · rw [if_pos hc]
      refine ⟨?_, by simp, h2, by simp; omega⟩
      rw [startsSep, anySep_iff, if_pos hc]
    · rw [if_neg hc, startsSep, anySep_iff, if_neg hc, upToNul_eq h1, upToNul_eq h2]
      by_cases he : endsSep r = true
      · rw [if_pos he, formatted, if_neg (by simp at hl ⊢; omega)]
        refine ⟨?_, by simp, ?_, by simp⟩
        · obtain ⟨x, d, rfl, hd⟩ := endsSep_iff he
          rw [locOf, startsSep_append (by simp), follow_double hd (show anySep 47 = true by decide),
            follow_append (show anySep 47 = true by decide)]
          rfl
        · rw [List.mem_append, not_or]; exact ⟨h1, h2⟩
      · rw [if_neg he, formatted, if_neg (by simp at hl ⊢; omega)]
        refine ⟨?_, by simp, ?_, by simp; omega⟩
        · rw [locOf, startsSep_append hr, follow_append (show anySep 47 = true by decide)]
          rfl
        · rw [List.mem_append, List.mem_cons, not_or, not_or]
          exact ⟨h1, by decide, h2⟩

/-- Joining parts without NUL, the first of them not empty, follows them one after the other. Missing
for the full claim: an empty first part, NUL bytes, results longer than INT_MAX. -/
theorem C108_join_partial (p : Str) (ps : List Str) (hp : p ≠ []) (h : ∀ q ∈ p :: ps, 0 ∉ q)
    (hl : ((p :: ps).map (fun q => q.length + 1)).sum ≤ int32Max) :
    locOf anySep (pathJoin (p :: ps)) = joinLoc (p :: ps) := by
  have key : ∀ (ps : List Str) (r : Str), r ≠ [] → 0 ∉ r → (∀ q ∈ ps, 0 ∉ q) →
      r.length + (ps.map (fun q => q.length + 1)).sum ≤ int32Max →
      locOf anySep (ps.foldl joinStep r) =
        ps.foldl (fun l p => if startsSep anySep p then locOf anySep p else follow anySep l p)
          (locOf anySep r) := by
    intro ps
    induction ps with
    | nil => intro r _ _ _ _; rfl
    | cons q qs ih =>
      intro r hr h0 hq hl
      rw [List.map_cons, List.sum_cons] at hl
      obtain ⟨a, b, c, d⟩ := joinStep_spec hr h0 (hq q (by simp)) (by omega)
      rw [List.foldl_cons, List.foldl_cons, ih _ b c (fun x hx => hq x (List.mem_cons_of_mem _ hx))
        (by omega), a]
  rw [List.map_cons, List.sum_cons] at hl
  rw [pathJoin, key ps p hp (h p (by simp)) (fun q hq => h q (List.mem_cons_of_mem _ hq)) (by omega),
    joinLoc, List.foldl_cons]
  congr 1
  unfold locOf
  cases hs : startsSep anySep p <;> rfl

theorem stripKeep_eq {t rest : Str} (ht : ∀ c ∈ t, isSep c = true) (hr : rest ≠ [])
    (hh : ∀ c, rest.head? = some c → isSep c = false) : stripKeep (t ++ rest) = rest := by
  induction t with
  | nil =>
    rw [List.nil_append]
    match rest, hr, hh with
    | [c], _, _ => rfl
    | c :: d :: r, _, hh => rw [stripKeep, if_neg (by rw [hh c rfl]; decide)]
  | cons c t ih =>
    have ih := ih (fun x hx => ht x (List.mem_cons_of_mem _ hx))
    have hc := ht c (by simp)
    cases ht' : t ++ rest with
    | nil => rw [List.append_eq_nil_iff] at ht'; exact absurd ht'.2 hr
    | cons d r =>
      rw [List.cons_append, ht', stripKeep, if_pos hc, ← ht', ih]

theorem stripKeep_all {t : Str} (ht : ∀ c ∈ t, isSep c = true) (h : t ≠ []) :
    ∃ c, stripKeep t = [c] ∧ isSep c = true := by
  induction t with
  | nil => exact absurd rfl h
  | cons c t ih =>
    cases t with
    | nil => exact ⟨c, rfl, ht c (by simp)⟩
    | cons d r =>
      rw [stripKeep, if_pos (ht c (by simp))]
      exact ih (fun x hx => ht x (List.mem_cons_of_mem _ hx)) (by simp)

theorem follow_seps {sep : Byte → Bool} (t : Str) (ht : ∀ c ∈ t, sep c = true) (l : Loc) :
    follow sep l t = l := by
  induction t generalizing l with
  | nil => exact follow_nil sep l
  | cons c r ih =>
    have := follow_append (ht c (by simp)) l [] r
    rw [List.nil_append] at this
    rw [this, follow_nil, ih (fun x hx => ht x (List.mem_cons_of_mem _ hx))]

theorem follow_trail {sep : Byte → Bool} (x t : Str) (ht : ∀ c ∈ t, sep c = true) (l : Loc) :
    follow sep l (x ++ t) = follow sep l x := by
  cases t with
  | nil => rw [List.append_nil]
  | cons c r =>
    rw [follow_append (ht c (by simp)), follow_seps r (fun y hy => ht y (List.mem_cons_of_mem _ hy))]

theorem mem_takeWhile {p : Byte → Bool} {s : Str} {c : Byte} (h : c ∈ s.takeWhile p) : p c = true := by
  induction s with
  | nil => cases h
  | cons x r ih =>
    rw [List.takeWhile_cons] at h
    split at h
    · rename_i hx
      rw [List.mem_cons] at h
      rcases h with rfl | h
      · exact hx
      · exact ih h
    · cases h

theorem dropWhile_head {p : Byte → Bool} {s : Str} {c : Byte} {r : Str} (h : s.dropWhile p = c :: r) :
    p c = false := by
  induction s with
  | nil => cases h
  | cons x t ih =>
    rw [List.dropWhile_cons] at h
    split at h
    · exact ih h
    · rename_i hx
      injection h with h1 _
      rw [← h1]; simpa using hx

/-- A path without NUL leads to the same place as the join of its dirname and its basename. -/
theorem C108_split_partial (p : Str) (h0 : 0 ∉ p) (hl : p.length + 3 ≤ int32Max) :
    locOf anySep (pathJoin [dirname p, basename p]) = locOf anySep p := by
  have hM : int32Max = 2147483647 := rfl
  by_cases hp : p = []
  · subst hp; decide
  obtain ⟨t, ht⟩ : ∃ t, t = p.reverse.takeWhile isSep := ⟨_, rfl⟩
  obtain ⟨rest, hrest⟩ : ∃ t, t = p.reverse.dropWhile isSep := ⟨_, rfl⟩
  have htr : p.reverse = t ++ rest := by rw [ht, hrest, List.takeWhile_append_dropWhile]
  have hts : ∀ c ∈ t, isSep c = true := fun c hc => by rw [ht] at hc; exact mem_takeWhile hc
  have hpe : p = rest.reverse ++ t.reverse := by
    rw [← List.reverse_append, ← htr, List.reverse_reverse]
  have hts' : ∀ c ∈ t.reverse, anySep c = true := fun c hc => by
    rw [anySep_iff]; exact hts c (List.mem_reverse.1 hc)
  cases hr : rest with
  | nil =>
    -- all separators
    have hbase : basename p = [47] := by
      rw [basename, if_neg hp, ← hrest, hr]
    have hpt : p.reverse = t := by rw [htr, hr, List.append_nil]
    obtain ⟨c, hc1, hc2⟩ := stripKeep_all (t := p.reverse) (by rw [hpt]; exact hts) (by simpa using hp)
    have hdir : dirname p = [47] := by
      rw [dirname, if_neg hp, hc1, List.dropWhile_cons, if_neg (by simp [hc2])]
      rfl
    rw [hbase, hdir]
    have : locOf anySep p = ⟨true, 0, []⟩ := by
      rw [locOf]
      have hs : ∀ c ∈ p, anySep c = true := by
        rw [hpe, hr]; simpa using hts'
      rw [follow_seps p hs]
      cases p with
      | nil => exact absurd rfl hp
      | cons x y => rw [startsSep, hs x (by simp)]
    rw [this]; decide
  | cons c r =>
    have hc : isSep c = false := dropWhile_head (hrest.symm.trans hr)
    obtain ⟨b, hb⟩ : ∃ b, b = (c :: r).takeWhile (fun c => !isSep c) := ⟨_, rfl⟩
    obtain ⟨d, hd⟩ : ∃ d, d = (c :: r).dropWhile (fun c => !isSep c) := ⟨_, rfl⟩
    have hbd : c :: r = b ++ d := by rw [hb, hd, List.takeWhile_append_dropWhile]
    have hbs : ∀ x ∈ b, isSep x = false := fun x hx => by
      rw [hb] at hx
      have := mem_takeWhile hx
      simpa using this
    have hbne : b ≠ [] := by
      rw [hb, List.takeWhile_cons, if_pos (by simp [hc])]; simp
    have hbase : basename p = b.reverse := by
      rw [basename, if_neg hp, ← hrest, hr, hb]
    have hstrip : stripKeep p.reverse = c :: r := by
      rw [htr, hr]
      exact stripKeep_eq hts (by simp) (by intro x hx; simp at hx; rw [← hx]; exact hc)
    have hbs' : ∀ x ∈ b.reverse, anySep x = false := fun x hx => by
      rw [anySep_iff]; exact hbs x (List.mem_reverse.1 hx)
    have hpe2 : p = d.reverse ++ b.reverse ++ t.reverse := by
      rw [hpe, hr, hbd, List.reverse_append]
    have hlen : p.length = d.length + b.length + t.length := by rw [hpe2]; simp; omega
    have hmem : ∀ x, x ∈ d ∨ x ∈ b → x ≠ 0 := by
      rintro x hx rfl
      apply h0
      rw [hpe2]; simp
      rcases hx with hx | hx
      · exact Or.inl hx
      · exact Or.inr (Or.inl hx)
    have hb0 : 0 ∉ b.reverse := fun hm => hmem 0 (Or.inr (List.mem_reverse.1 hm)) rfl
    have hbst : startsSep anySep b.reverse = false := by
      cases hbr : b.reverse with
      | nil => exact absurd (by simpa using hbr) hbne
      | cons x y => exact hbs' x (by rw [hbr]; simp)
    have hjoin : ∀ D : Str, D ≠ [] → 0 ∉ D → D.length + b.length + 1 ≤ int32Max →
        locOf anySep (pathJoin [D, b.reverse]) = follow anySep (locOf anySep D) b.reverse := by
      intro D h1 h2 h3
      have := (joinStep_spec (seg := b.reverse) h1 h2 hb0 (by simpa using h3)).1
      rw [hbst, if_neg (by decide)] at this
      exact this
    rw [hbase, dirname, if_neg hp, hstrip, ← hd]
    cases hdd : d with
    | nil =>
      simp only
      rw [hjoin [46] (by decide) (by decide) (by rw [hM]; simp; omega)]
      have hp3 : p = b.reverse ++ t.reverse := by rw [hpe2, hdd]; simp
      rw [hp3]
      unfold locOf
      rw [follow_trail _ _ hts', startsSep_append (by simpa using hbne), hbst]
      rfl
    | cons s before =>
      have hs : anySep s = true := by
        rw [anySep_iff]
        have := dropWhile_head (hd.symm.trans hdd)
        simpa using this
      simp only
      by_cases hbf : before = []
      · rw [if_pos hbf, hjoin [47] (by decide) (by decide) (by rw [hM]; simp; omega)]
        have hp3 : p = ([] ++ s :: b.reverse) ++ t.reverse := by rw [hpe2, hdd, hbf]; simp
        rw [hp3]
        unfold locOf
        rw [follow_trail _ _ hts', follow_append hs, List.nil_append, follow_nil, List.cons_append]
        show _ = follow anySep ⟨anySep s, 0, []⟩ b.reverse
        rw [hs]
        rfl
      · rw [if_neg hbf, hjoin before.reverse (by simpa using hbf) (by
          intro hm
          exact hmem 0 (Or.inl (by rw [hdd]; exact List.mem_cons_of_mem _ (List.mem_reverse.1 hm))) rfl) (by
          rw [hdd, List.length_cons] at hlen; simp; omega)]
        have hp3 : p = (before.reverse ++ s :: b.reverse) ++ t.reverse := by rw [hpe2, hdd]; simp
        rw [hp3]
        unfold locOf
        rw [follow_trail _ _ hts', follow_append hs, List.append_assoc, startsSep_append (by simpa using hbf)]

/-- A path not starting with a backslash is absolute exactly when it starts at the root. -/
theorem C108_absolute_partial (p : Str) (h : p.head? ≠ some (ch '\\')) :
    isAbsolute p = (locOf anySep p).abs := by
  rw [locOf, follow, foldl_walk_abs]
  cases p with
  | nil => rfl
  | cons c r =>
    show (some c == some 47) = anySep c
    have hc : c ≠ 92 := fun e => h (by rw [e]; rfl)
    have : ∀ n : Fin 256, (BitVec.ofFin n : Byte) ≠ 92 →
        (some (BitVec.ofFin n : Byte) == some 47) = anySep (BitVec.ofFin n) := by decide +kernel
    exact this c.toFin hc

/-- Joining nothing gives the current directory, and so does the directory of a bare name. -/
theorem C108_here_partial : pathJoin [] = lit "." ∧
    ∀ p : Str, (∀ c ∈ p, c ≠ ch '/' ∧ c ≠ ch '\\') → dirname p = lit "." := by
  refine ⟨rfl, fun p h => ?_⟩
  have hs : ∀ c ∈ p, isSep c = false := by
    intro c hc
    have h1 := h c hc
    have h2 : c ≠ 47 ∧ c ≠ 92 := h1
    rw [isSep, beq_eq_false_iff_ne.2 h2.1, beq_eq_false_iff_ne.2 h2.2]
    rfl
  rw [dirname]
  split
  · rfl
  · have hk : ∀ q : Str, (∀ c ∈ q, isSep c = false) → stripKeep q = q := by
      intro q hq
      match q with
      | [] => rfl
      | [c] => rfl
      | c :: d :: r => rw [stripKeep, hq c (by simp)]; rfl
    have hd : ∀ q : Str, (∀ c ∈ q, isSep c = false) → q.dropWhile (fun c => !isSep c) = [] := by
      intro q
      induction q with
      | nil => intro _; rfl
      | cons c r ih =>
        intro hq
        rw [List.dropWhile_cons_of_pos (by simp [hq c (by simp)]),
          ih (fun x hx => hq x (List.mem_cons_of_mem _ hx))]
    have hr : ∀ c ∈ p.reverse, isSep c = false := fun c hc => hs c (List.mem_reverse.1 hc)
    rw [hk _ hr, hd _ hr]
    rfl

/-- The basename is the last component, and is "/" for a path of separators only. -/
theorem C108_basename_partial (p : Str) (hp : p ≠ []) :
    (∀ d b t : Str, p = d ++ b ++ t → b ≠ [] → (∀ c ∈ b, anySep c = false) → (∀ c ∈ t, anySep c = true) →
      (d = [] ∨ ∃ x s, d = x ++ [s] ∧ anySep s = true) → basename p = b) ∧
    ((∀ c ∈ p, anySep c = true) → basename p = lit "/") := by
  have hdw : ∀ (q : Byte → Bool) (t r : Str), (∀ c ∈ t, q c = true) → (t ++ r).dropWhile q = r.dropWhile q := by
    intro q t r h
    induction t with
    | nil => rfl
    | cons c t ih =>
      rw [List.cons_append, List.dropWhile_cons, if_pos (h c (by simp)),
        ih (fun x hx => h x (List.mem_cons_of_mem _ hx))]
  refine ⟨?_, ?_⟩
  · intro d b t he hb hbs hts hd
    have hr : p.reverse = t.reverse ++ (b.reverse ++ d.reverse) := by rw [he]; simp
    rw [basename, if_neg hp, hr, hdw isSep _ _ (fun c hc => by rw [← anySep_iff]; exact hts c (List.mem_reverse.1 hc))]
    cases hbr : b.reverse with
    | nil => exact absurd (by simpa using hbr) hb
    | cons c r =>
      have hbs' : ∀ x ∈ c :: r, isSep x = false := fun x hx => by
        rw [← anySep_iff]; rw [← hbr] at hx; exact hbs x (List.mem_reverse.1 hx)
      rw [List.cons_append, List.dropWhile_cons, if_neg (by simp [hbs' c (by simp)])]
      simp only
      have htw : ∀ (b d : Str), (∀ x ∈ b, isSep x = false) → (∀ c, d.head? = some c → isSep c = true) →
          (b ++ d).takeWhile (fun c => !isSep c) = b := by
        intro b d h1 h2
        induction b with
        | nil =>
          cases d with
          | nil => rfl
          | cons x y => rw [List.nil_append, List.takeWhile_cons, if_neg (by simp [h2 x rfl])]
        | cons x y ih =>
          rw [List.cons_append, List.takeWhile_cons, if_pos (by simp [h1 x (by simp)]),
            ih (fun z hz => h1 z (List.mem_cons_of_mem _ hz))]
      rw [← List.cons_append, htw (c :: r) d.reverse hbs' (by
        intro x hx
        rcases hd with rfl | ⟨y, s, rfl, hs⟩
        · cases hx
        · rw [List.reverse_append] at hx
          simp at hx
          rw [← hx, ← anySep_iff]; exact hs), ← hbr, List.reverse_reverse]
  · intro h
    have := hdw isSep p.reverse [] (fun c hc => by rw [← anySep_iff]; exact h c (List.mem_reverse.1 hc))
    rw [List.append_nil] at this
    rw [basename, if_neg hp, this]; rfl

/-- The extension is a point and what follows it in the last component, if the point is the last one
and neither the first nor the last byte of the component. -/
theorem C108_extension_partial (p e : Str) : (extension p = e ∧ e ≠ []) ↔
    ∃ d stem t : Str, p = d ++ stem ++ ch '.' :: t ∧ e = ch '.' :: t ∧ stem ≠ [] ∧ t ≠ [] ∧ ch '.' ∉ t ∧
      (∀ c ∈ stem, anySep c = false) ∧ (∀ c ∈ t, anySep c = false) ∧
      (d = [] ∨ ∃ x s, d = x ++ [s] ∧ anySep s = true) := by
  obtain ⟨last, hlast⟩ : ∃ l, l = p.reverse.takeWhile (fun c => !isSep c) := ⟨_, rfl⟩
  obtain ⟨dd, hdd⟩ : ∃ l, l = p.reverse.dropWhile (fun c => !isSep c) := ⟨_, rfl⟩
  have hp : p.reverse = last ++ dd := by rw [hlast, hdd, List.takeWhile_append_dropWhile]
  have hls : ∀ c ∈ last, anySep c = false := fun c hc => by
    rw [hlast] at hc
    rw [anySep_iff]
    simpa using mem_takeWhile hc
  constructor
  · rintro ⟨h1, h2⟩
    unfold extension at h1
    simp only [← hlast] at h1
    cases hd : last.dropWhile (fun c => c != 46) with
    | nil => rw [hd] at h1; exact absurd h1.symm h2
    | cons x stem =>
      rw [hd] at h1
      simp only at h1
      by_cases ht : last.takeWhile (fun c => c != 46) = []
      · rw [if_pos ht] at h1; exact absurd h1.symm h2
      · rw [if_neg ht] at h1
        by_cases hst : stem = []
        · rw [if_pos hst] at h1; exact absurd h1.symm h2
        · rw [if_neg hst] at h1
          have hx : x = 46 := by
            have := dropWhile_head hd
            simpa using this
          have hsplit : last = last.takeWhile (fun c => c != 46) ++ 46 :: stem := by
            have := (List.takeWhile_append_dropWhile (p := fun c => c != 46) (l := last)).symm
            rwa [hd, hx] at this
          refine ⟨dd.reverse, stem.reverse, (last.takeWhile (fun c => c != 46)).reverse, ?_, h1.symm,
            by simpa using hst, by simpa using ht, ?_, ?_, ?_, ?_⟩
          · rw [← List.reverse_reverse p, hp]
            conv_lhs => rw [hsplit]
            simp [ch]
          · intro hm
            have := mem_takeWhile (List.mem_reverse.1 hm)
            revert this; decide
          · intro c hc
            refine hls c ?_
            rw [hsplit]; simp [List.mem_reverse.1 hc]
          · intro c hc
            refine hls c ?_
            rw [hsplit]; simp only [List.mem_append]
            exact Or.inl (List.mem_reverse.1 hc)
          · cases hq : dd with
            | nil => exact Or.inl rfl
            | cons s y =>
              right
              refine ⟨y.reverse, s, by simp, ?_⟩
              have := dropWhile_head (hdd.symm.trans hq)
              rw [anySep_iff]; simpa using this
  · rintro ⟨d, stem, t, he, rfl, h1, h2, h3, h4, h5, h6⟩
    have hpr : p.reverse = (t.reverse ++ 46 :: stem.reverse) ++ d.reverse := by
      rw [he]; simp [ch]
    have htw : ∀ (q : Byte → Bool) (b d : Str), (∀ x ∈ b, q x = true) → (∀ c, d.head? = some c → q c = false) →
        (b ++ d).takeWhile q = b ∧ (b ++ d).dropWhile q = d := by
      intro q b d h1 h2
      induction b with
      | nil =>
        cases d with
        | nil => exact ⟨rfl, rfl⟩
        | cons x y =>
          rw [List.nil_append, List.takeWhile_cons, List.dropWhile_cons, if_neg (by simp [h2 x rfl]),
            if_neg (by simp [h2 x rfl])]
          exact ⟨rfl, rfl⟩
      | cons x y ih =>
        obtain ⟨i1, i2⟩ := ih (fun z hz => h1 z (List.mem_cons_of_mem _ hz))
        rw [List.cons_append, List.takeWhile_cons, List.dropWhile_cons, if_pos (h1 x (by simp)),
          if_pos (h1 x (by simp)), i1, i2]
        exact ⟨rfl, rfl⟩
    have hl : last = t.reverse ++ 46 :: stem.reverse := by
      rw [hlast, hpr]
      refine (htw _ _ _ ?_ ?_).1
      · intro x hx
        rw [List.mem_append, List.mem_reverse, List.mem_cons, List.mem_reverse] at hx
        rw [Bool.not_eq_true', ← anySep_iff]
        rcases hx with hx | rfl | hx
        · exact h5 x hx
        · decide
        · exact h4 x hx
      · intro c hc
        rcases h6 with rfl | ⟨x, s, rfl, hs⟩
        · cases hc
        · rw [List.reverse_append] at hc
          simp at hc
          rw [← hc, ← anySep_iff, hs]; rfl
    obtain ⟨e1, e2⟩ := htw (fun c => c != 46) t.reverse (46 :: stem.reverse) (by
      intro x hx
      have : x ≠ 46 := fun e => h3 (by rw [← List.mem_reverse]; rw [e] at hx; exact hx)
      simpa using this) (by intro c hc; simp at hc; rw [← hc]; decide)
    refine ⟨?_, by simp⟩
    unfold extension
    simp only [← hlast, hl, e1, e2]
    rw [if_neg (by simpa using h2), if_neg (by simpa using h1), List.reverse_reverse]
    rfl

example : dirname (lit "/a/b.c") = lit "/a" ∧ basename (lit "/a/b.c") = lit "b.c" ∧
    extension (lit "/a/b.c") = lit ".c" ∧ extension (lit ".c") = [] ∧
    pathJoin [lit "/home", lit "user", lit "docs"] = lit "/home/user/docs" ∧
    pathJoin [lit "a/b", lit "/abs"] = lit "/abs" := by decide +kernel

/-! ### C39 -/

theorem elements_ne (p : Str) : elements p ≠ [] := by
  cases p with
  | nil => rw [elements]; simp
  | cons c r =>
    rw [elements]
    split
    · simp
    · split <;> simp

theorem elements_eq (p : Str) : elements p = comps slash [] p := by
  have key : ∀ (p cur : Str), comps slash cur p =
      match elements p with | [] => [cur] | e :: es => (cur ++ e) :: es := by
    intro p
    induction p with
    | nil => intro cur; simp [comps, elements]
    | cons c r ih =>
      intro cur
      rw [comps, elements]
      by_cases hc : c = 47
      · rw [if_pos hc, if_pos (by rw [hc]; decide), ih []]
        cases he : elements r with
        | nil => exact absurd he (elements_ne r)
        | cons e es => simp
      · rw [if_neg hc, if_neg (by rw [slash, decide_eq_true_eq]; exact hc), ih (cur ++ [c])]
        cases elements r <;> simp
  rw [key p []]
  cases h : elements p with
  | nil => exact absurd h (elements_ne p)
  | cons e es => rfl

theorem goIsAbs_eq (p : Str) : goIsAbs p = startsSep slash p := by
  cases p with
  | nil => rfl
  | cons c r =>
    show (some c == some 47) = slash c
    rw [Bool.eq_iff_iff]
    simp only [slash, decide_eq_true_eq, beq_iff_eq, Option.some.injEq]
    rfl

/-- Clean gives the shortest text of the same place. -/
theorem goClean_eq (p : Str) : goClean p = render (locOf slash p) := by
  unfold goClean
  have hw : Loc.WF slash ⟨startsSep slash p, 0, []⟩ := ⟨fun _ => rfl, by simp⟩
  have hr := fold_rep (comps slash [] p) hw (show Rep ⟨startsSep slash p, 0, []⟩ [] from rfl)
    (comps_nosep p [] (by simp))
  have ho := out_eq (foldl_walk_wf _ hw (comps_nosep p [] (by simp))) hr
  rw [foldl_walk_abs] at ho
  simp only [elements_eq, goIsAbs_eq]
  exact ho

theorem goClean_loc (p : Str) : locOf slash (goClean p) = locOf slash p := by
  rw [goClean_eq]; exact locOf_render (by decide) (by decide) (locOf_wf slash p)

/-- The place of `p` as seen from the working directory. -/
def placeOf (wd p : Str) : Loc := locOf slash (if startsSep slash p then p else wd ++ ch '/' :: p)

theorem goBase_cases (p : Str) : goBase p = [46] ∨ goBase p = [47] ∨
    (goBase p ≠ [] ∧ ∀ c ∈ goBase p, slash c = false) := by
  unfold goBase
  split
  · exact Or.inl rfl
  · cases hd : p.reverse.dropWhile (fun c => c == 47) with
    | nil => exact Or.inr (Or.inl rfl)
    | cons c r =>
      right; right
      have hc := dropWhile_head hd
      simp only
      refine ⟨?_, ?_⟩
      · rw [List.takeWhile_cons, if_pos (by simpa using hc)]; simp
      · intro x hx
        have := mem_takeWhile (List.mem_reverse.1 hx)
        have : x ≠ 47 := by simpa using this
        rw [slash, decide_eq_false_iff_not]; exact this

theorem clean_single {n : Str} (h1 : n ≠ []) (h : ∀ c ∈ n, slash c = false) : goClean n = n := by
  rw [goClean_eq]
  have hs : startsSep slash n = false := by
    cases n with
    | nil => exact absurd rfl h1
    | cons c r => exact h c (by simp)
  rw [locOf, follow_plain h, hs]
  by_cases h2 : n = lit "."
  · rw [h2]; decide
  · by_cases h3 : n = lit ".."
    · rw [h3]; decide
    · rw [walk, if_neg (by rintro (e | e); exacts [h1 e, h2 e]), if_neg h3]
      rw [render, if_neg (by simp)]
      rfl

theorem clean_base (p : Str) : goClean (goBase p) = goBase p := by
  rcases goBase_cases p with h | h | ⟨h1, h2⟩
  · rw [h]; decide
  · rw [h]; decide
  · exact clean_single h1 h2

theorem goJoin_loc {d n : Str} (hd : d ≠ []) (hn : n ≠ []) :
    locOf slash (goJoin d n) = follow slash (locOf slash d) n := by
  rw [goJoin, if_neg hd, if_neg hn, goClean_loc, locOf, startsSep_append hd,
    follow_append (show slash 47 = true by decide)]
  rfl

theorem render_starts {l : Loc} (h : l.WF slash) : startsSep slash (render l) = l.abs := by
  have := locOf_render (sep := slash) (by decide) (by decide) h
  have h2 := congrArg Loc.abs this
  rwa [locOf, follow, foldl_walk_abs] at h2

theorem locOf_abs (sep : Byte → Bool) (p : Str) : (locOf sep p).abs = startsSep sep p := by
  rw [locOf, follow, foldl_walk_abs]

theorem render_ne (sep : Byte → Bool) {l : Loc} (h : l.WF sep) : render l ≠ [] := by
  unfold render
  split
  · decide
  · rename_i h0
    cases ha : l.abs with
    | true => simp [lit]
    | false =>
      simp only [Bool.false_eq_true, if_false, List.nil_append]
      exact joined_ne h (fun e => h0 ⟨ha, e⟩)

/-- Following a relative place from another one. -/
def app (b l : Loc) : Loc := l.names.foldl walk ((List.replicate l.ups (lit "..")).foldl walk b)

theorem app_walk {sep : Byte → Bool} (b : Loc) {l : Loc} (hw : l.WF sep) (ha : l.abs = false) (c : Str) :
    app b (walk l c) = walk (app b l) c := by
  rw [walk]
  by_cases h1 : c = [] ∨ c = lit "."
  · rw [if_pos h1, walk, if_pos h1]
  · rw [if_neg h1]
    by_cases h2 : c = lit ".."
    · rw [if_pos h2]
      by_cases hn : l.names = []
      · rw [if_pos hn, ha, if_neg (by decide), app, app]
        simp only [hn, List.foldl_nil]
        rw [List.replicate_succ', List.foldl_append, h2]
        rfl
      · rw [if_neg hn, app, app]
        simp only
        obtain ⟨n, hlast⟩ : ∃ n, l.names = l.names.dropLast ++ [n] :=
          ⟨l.names.getLast hn, (List.dropLast_concat_getLast hn).symm⟩
        obtain ⟨i, hi⟩ : ∃ i, i = l.names.dropLast := ⟨_, rfl⟩
        rw [← hi] at hlast ⊢
        obtain ⟨g1, g2, g3, -⟩ := hw.good n (by rw [hlast]; simp)
        rw [hlast, List.foldl_append, List.foldl_cons, List.foldl_nil, h2]
        generalize List.foldl walk _ i = x
        have hx : walk x n = { x with names := x.names ++ [n] } := by
          rw [walk, if_neg (by rintro (e | e); exacts [g1 e, g2 e]), if_neg g3]
        rw [hx, walk, if_neg (by decide), if_pos rfl, if_neg (by simp)]
        simp
    · rw [if_neg h2, app, app]
      simp only
      rw [List.foldl_append]
      rfl

theorem app_foldl {sep : Byte → Bool} (b : Loc) (cs : List Str) : ∀ {l : Loc}, l.WF sep → l.abs = false →
    (∀ n ∈ cs, ∀ c ∈ n, sep c = false) → app b (cs.foldl walk l) = cs.foldl walk (app b l) := by
  induction cs with
  | nil => intro l _ _ _; rfl
  | cons c r ih =>
    intro l hw ha hc
    rw [List.foldl_cons, List.foldl_cons, ih (walk_wf hw (hc c (by simp))) (by rw [walk_abs, ha])
      (fun n hn => hc n (List.mem_cons_of_mem _ hn)), app_walk b hw ha]

theorem follow_rel {sep : Byte → Bool} (b : Loc) {p : Str} (h : startsSep sep p = false) :
    follow sep b p = app b (locOf sep p) := by
  rw [locOf, follow, follow, h, app_foldl b _ (sep := sep) ⟨fun _ => rfl, by simp⟩ rfl
    (comps_nosep p [] (by simp))]
  rfl

theorem locOf_under (wd p : Str) : locOf slash (wd ++ ch '/' :: p) =
    follow slash (follow slash ⟨startsSep slash (wd ++ [ch '/']), 0, []⟩ wd) p := by
  rw [locOf, follow_append (by decide)]
  congr 2
  cases wd <;> rfl

/-- C39: for every destination, every absolute working directory and every entry name, an accepted
path leads to the destination or to an entry directly in it. -/
theorem C39_inside (wd dest name q : Str) (hd : dest ≠ []) (h : sanitize wd dest name = some q) :
    (placeOf wd q).abs = (placeOf wd dest).abs ∧ (placeOf wd q).ups = (placeOf wd dest).ups ∧
    ((placeOf wd q).names = (placeOf wd dest).names ∨
     ∃ n, GoodName slash n ∧ (placeOf wd q).names = (placeOf wd dest).names ++ [n]) := by
  unfold sanitize at h
  simp only [clean_base] at h
  split at h
  · cases h
  · rename_i hn
    rw [not_or, not_or] at hn
    split at h
    · injection h with h
      subst h
      -- the place of the joined path
      have hplace : placeOf wd (goJoin dest (goBase name)) = follow slash (placeOf wd dest) (goBase name) := by
        have hs : startsSep slash (goJoin dest (goBase name)) = startsSep slash dest := by
          have := congrArg Loc.abs (goJoin_loc hd hn.1)
          rw [locOf_abs] at this
          rw [this, follow, foldl_walk_abs, locOf_abs]
        unfold placeOf
        rw [hs]
        by_cases ha : startsSep slash dest = true
        · rw [if_pos ha, if_pos ha, goJoin_loc hd hn.1]
        · rw [if_neg ha, if_neg ha]
          rw [Bool.not_eq_true] at ha
          rw [locOf_under, locOf_under, follow_rel (sep := slash) _ (by rw [hs, ha]), goJoin_loc hd hn.1,
            follow_rel _ ha]
          exact app_foldl _ _ (locOf_wf slash dest) (by rw [locOf_abs, ha]) (comps_nosep _ [] (by simp))
      rw [hplace]
      rcases goBase_cases name with e | e | ⟨e1, e2⟩
      · exact absurd e hn.2.1
      · rw [e, follow_seps [47] (by decide)]
        exact ⟨rfl, rfl, Or.inl rfl⟩
      · rw [follow_plain e2, walk_def, if_neg (by rintro (e | e); exacts [e1 e, hn.2.1 e]), if_neg hn.2.2]
        exact ⟨rfl, rfl, Or.inr ⟨_, ⟨e1, hn.2.1, hn.2.2, e2⟩, rfl⟩⟩
    · cases h

/-- The final check alone would be enough: a cleaned absolute path that passes it leads into the
directory. -/
theorem C39_check (d p : Str) (hd : startsSep slash d = true) (hp : startsSep slash p = true)
    (h : insideCheck (goClean d) (goClean p) = true) :
    ∃ rest, (locOf slash p).names = (locOf slash d).names ++ rest := by
  have hwd := locOf_wf slash d
  have hwp := locOf_wf slash p
  unfold insideCheck at h
  rw [Bool.or_eq_true, List.isPrefixOf_iff_prefix, beq_iff_eq] at h
  rcases h with ⟨t, h⟩ | h
  · have h1 := congrArg (locOf slash) h
    rw [goClean_loc, List.append_assoc, List.singleton_append, locOf,
      startsSep_append (by rw [goClean_eq]; exact render_ne slash hwd), follow_append (by decide)] at h1
    have h2 : follow slash ⟨startsSep slash (goClean d), 0, []⟩ (goClean d) = locOf slash d := goClean_loc d
    rw [h2] at h1
    -- the components of the rest are those of a cleaned path
    have hcs : comps slash [] (goClean p) = comps slash [] (goClean d) ++ comps slash [] t := by
      rw [← h, List.append_assoc, List.singleton_append, comps_append (by decide)]
    have hpa : (locOf slash p).abs = true := by rw [locOf_abs, hp]
    have hgood : ∀ n ∈ comps slash [] t, n = [] ∨ GoodName slash n := by
      intro n hn
      have : n ∈ comps slash [] (goClean p) := by rw [hcs]; exact List.mem_append_right _ hn
      rw [goClean_eq, render, if_neg (by simp [hpa]), hpa, if_pos rfl, hwp.root hpa] at this
      have h3 : comps slash [] (lit "/" ++ joined (lit "/") (List.replicate 0 (lit "..") ++ (locOf slash p).names)) =
          [] :: comps slash [] (joined (lit "/") (locOf slash p).names) := rfl
      rw [h3, List.mem_cons] at this
      rcases this with e | this
      · exact Or.inl e
      · by_cases hne : (locOf slash p).names = []
        · rw [hne] at this
          simp [joined, comps] at this
          exact Or.inl this
        · rw [comps_joined (by decide) _ hne (fun n hn => (hwp.good n hn).2.2.2)] at this
          exact Or.inr (hwp.good n this)
    have key : ∀ (cs : List Str) (l : Loc), (∀ n ∈ cs, n = [] ∨ GoodName slash n) →
        ∃ rest, (cs.foldl walk l).names = l.names ++ rest := by
      intro cs
      induction cs with
      | nil => intro l _; exact ⟨[], by simp⟩
      | cons c r ih =>
        intro l hc
        obtain ⟨x, hx⟩ := ih (walk l c) (fun n hn => hc n (List.mem_cons_of_mem _ hn))
        rw [List.foldl_cons, hx]
        rcases hc c (by simp) with rfl | ⟨g1, g2, g3, -⟩
        · rw [walk_nil]; exact ⟨x, rfl⟩
        · rw [walk, if_neg (by rintro (e | e); exacts [g1 e, g2 e]), if_neg g3]
          exact ⟨[c] ++ x, by simp⟩
    rw [← h1]
    exact key _ _ hgood
  · have := congrArg (locOf slash) h
    rw [goClean_loc, goClean_loc] at this
    exact ⟨[], by rw [this, List.append_nil]⟩

/-- Every name whose last component is an ordinary name is accepted, unless the destination is the
root. -/
theorem C39_accepts (wd dest n : Str) (hd : startsSep slash dest = true) (hn : GoodName slash n)
    (hr : (locOf slash dest).names ≠ []) : sanitize wd dest n = some (goJoin dest n) := by
  obtain ⟨g1, g2, g3, g4⟩ := hn
  have hdn : dest ≠ [] := by rintro rfl; cases hd
  have hbase : goBase n = n := by
    unfold goBase
    rw [if_neg g1]
    have hrev : ∀ c ∈ n.reverse, c ≠ 47 := fun c hc e => by
      have := g4 c (List.mem_reverse.1 hc)
      rw [e] at this; revert this; decide
    cases hq : n.reverse with
    | nil => exact absurd (by simpa using hq) g1
    | cons c r =>
      rw [hq] at hrev
      rw [List.dropWhile_cons, if_neg (by simpa using hrev c (by simp))]
      simp only
      rw [takeWhile_self (by intro x hx; simpa using hrev x hx), ← hq, List.reverse_reverse]
  unfold sanitize
  simp only [hbase, clean_single g1 g4]
  rw [if_neg (by rintro (e | e | e); exacts [g1 e, g2 e, g3 e]), if_pos]
  have hja : startsSep slash (goJoin dest n) = true := by
    have := congrArg Loc.abs (goJoin_loc hdn g1)
    rw [locOf_abs] at this
    rw [this, follow, foldl_walk_abs, locOf_abs, hd]
  unfold goAbs
  rw [goIsAbs_eq, goIsAbs_eq, hd, hja, if_pos rfl, if_pos rfl]
  have hl : locOf slash (goJoin dest n) = { locOf slash dest with names := (locOf slash dest).names ++ [n] } := by
    rw [goJoin_loc hdn g1, follow_plain g4, walk, if_neg (by rintro (e | e); exacts [g1 e, g2 e]), if_neg g3]
  have hda : (locOf slash dest).abs = true := by rw [locOf_abs, hd]
  have hu := (locOf_wf slash dest).root hda
  unfold insideCheck
  rw [Bool.or_eq_true, List.isPrefixOf_iff_prefix]
  left
  rw [goClean_eq, goClean_eq, hl]
  unfold render
  simp only [hda, hu]
  have hj : ∀ ps : List Str, ps ≠ [] → joined (lit "/") (ps ++ [n]) = joined (lit "/") ps ++ 47 :: n := by
    intro ps
    induction ps with
    | nil => intro h; exact absurd rfl h
    | cons p r ih =>
      intro _
      cases r with
      | nil => simp [joined, lit, ch]
      | cons q r =>
        rw [List.cons_append, List.cons_append, joined, joined, ← List.cons_append, ih (by simp)]
        simp
  refine ⟨n, ?_⟩
  have hj' : joined [ch '/'] ((locOf slash dest).names ++ [n]) = joined [ch '/'] (locOf slash dest).names ++ 47 :: n := hj _ hr
  simp [lit]
  exact hj'.symm

example : sanitize (lit "/w") (lit "/tmp/u") (lit "../../etc/gray") = some (lit "/tmp/u/gray") ∧
    sanitize (lit "/w") (lit "/tmp/u") (lit "a/..") = none := by decide +kernel

/-! ### C60 -/

theorem hasDotDot_iff (s : Str) : hasDotDot s = true ↔ ∃ a b, s = a ++ lit ".." ++ b := by
  induction s with
  | nil =>
    constructor
    · intro h; cases h
    · rintro ⟨a, b, h⟩; simp [lit] at h
  | cons c r ih =>
    constructor
    · intro h
      cases r with
      | nil => cases h
      | cons d r =>
        rw [hasDotDot, Bool.or_eq_true, Bool.and_eq_true, beq_iff_eq, beq_iff_eq] at h
        rcases h with ⟨rfl, rfl⟩ | h
        · exact ⟨[], r, rfl⟩
        · obtain ⟨a, b, e⟩ := ih.1 h
          exact ⟨c :: a, b, by rw [e]; rfl⟩
    · rintro ⟨a, b, h⟩
      cases a with
      | nil =>
        have : c :: r = 46 :: 46 :: b := h
        injection this with h1 h2
        subst h1 h2
        simp [hasDotDot]
      | cons x a =>
        have : c :: r = x :: (a ++ lit ".." ++ b) := h
        injection this with h1 h2
        have h3 := ih.2 ⟨a, b, h2⟩
        cases r with
        | nil => cases h3
        | cons d r => rw [hasDotDot, h3, Bool.or_true]

/-- C60: exactly the names that are one ordinary component, without a backslash, without two points in
a row and without a leading tilde, are accepted. -/
theorem C60_exact (n : Str) : isValidProjectName n = true ↔
    n ≠ [] ∧ n ≠ lit "." ∧ n ≠ lit ".." ∧ ch '/' ∉ n ∧ ch '\\' ∉ n ∧
    (¬ ∃ a b, n = a ++ lit ".." ++ b) ∧ n.head? ≠ some (ch '~') := by
  unfold isValidProjectName
  by_cases h0 : n = []
  · rw [if_pos h0]; simp [h0]
  rw [if_neg h0]
  by_cases hs : ch '/' ∈ n
  · constructor
    · intro h
      split at h
      · cases h
      · rw [if_pos (by
          rw [Bool.or_eq_true, List.any_eq_true]
          exact Or.inl ⟨_, hs, by decide⟩)] at h
        cases h
    · exact fun h => absurd hs h.2.2.2.1
  by_cases hb : ch '\\' ∈ n
  · constructor
    · intro h
      split at h
      · cases h
      · rw [if_pos (by
          rw [Bool.or_eq_true, List.any_eq_true]
          exact Or.inl ⟨_, hb, by decide⟩)] at h
        cases h
    · exact fun h => absurd hb h.2.2.2.2.1
  have hns : ∀ c ∈ n, slash c = false := fun c hc => by
    rw [slash, decide_eq_false_iff_not]; rintro rfl; exact hs hc
  have habs : goIsAbs n = false := by
    rw [goIsAbs_eq]
    cases n with
    | nil => exact absurd rfl h0
    | cons c r => exact hns c (by simp)
  have hany : (n.any fun c => c == 47 || c == 92) = false := by
    rw [List.any_eq_false]
    intro c hc h
    rw [Bool.or_eq_true, beq_iff_eq, beq_iff_eq] at h
    rcases h with rfl | rfl
    · exact hs hc
    · exact hb hc
  rw [habs, hany, Bool.false_or, Bool.false_or, clean_single h0 hns]
  have hh : (n.head? == some 126) = true ↔ n.head? = some (ch '~') := by rw [beq_iff_eq]; rfl
  by_cases ht : n.head? = some (ch '~')
  · rw [if_pos (hh.2 ht)]
    simp [ht]
  · rw [if_neg (fun e => ht (hh.1 e))]
    by_cases hdd : ∃ a b, n = a ++ lit ".." ++ b
    · rw [if_pos ((hasDotDot_iff n).2 hdd)]
      simp only [Bool.false_eq_true, false_iff]
      exact fun h => h.2.2.2.2.2.1 hdd
    · rw [if_neg (fun e => hdd ((hasDotDot_iff n).1 e))]
      rw [Bool.and_eq_true, Bool.and_eq_true, bne_iff_ne, bne_iff_ne]
      constructor
      · rintro ⟨⟨-, h1⟩, h2⟩
        exact ⟨h0, h1, h2, hs, hb, hdd, ht⟩
      · rintro ⟨-, h1, h2, -⟩
        exact ⟨⟨by simp, h1⟩, h2⟩

/-- An accepted name is a directory entry of the working directory. -/
theorem C60_single (n : Str) (h : isValidProjectName n = true) : locOf slash n = ⟨false, 0, [n]⟩ := by
  obtain ⟨h0, h1, h2, h3, -⟩ := (C60_exact n).1 h
  have hns : ∀ c ∈ n, slash c = false := fun c hc => by
    rw [slash, decide_eq_false_iff_not]; rintro rfl; exact h3 hc
  have hst : startsSep slash n = false := by
    cases n with
    | nil => exact absurd rfl h0
    | cons c r => exact hns c (by simp)
  rw [locOf, follow_plain hns, hst, walk, if_neg (by rintro (e | e); exacts [h0 e, h1 e]), if_neg h2]
  rfl

example : isValidProjectName (lit "my-app") = true ∧ isValidProjectName (lit "a/b") = false := by
  decide +kernel

/-! ### C107 -/

/-- C107 as claimed: a trusted address leads below the release directory. -/
def C107_statement : Prop :=
  ∀ scheme host path, isTrusted scheme host path = true →
    scheme = lit "https" ∧ host = lit "github.com" ∧
    ∃ rest, (locOf slash path).names =
      [lit "grayscale-lang", lit "grayscale", lit "releases", lit "download"] ++ rest

def otherRepo : Str :=
  lit "/grayscale-lang/grayscale/releases/download/../../../../evil/evil/releases/download/v1/gray"

/-- ".." in the path leads to another repository. -/
theorem C107_witness : isTrusted (lit "https") (lit "github.com") otherRepo = true ∧
    (locOf slash otherRepo).names = [lit "evil", lit "evil", lit "releases", lit "download", lit "v1", lit "gray"] := by
  decide +kernel

theorem C107_fails : ¬ C107_statement := by
  intro h
  obtain ⟨-, -, r, hr⟩ := h _ _ _ C107_witness.1
  rw [C107_witness.2] at hr
  injection hr with h1
  revert h1
  decide +kernel

/-- A trusted address without ".." components leads below the release directory. -/
theorem C107_partial (scheme host path : Str) (h : isTrusted scheme host path = true)
    (hd : lit ".." ∉ comps slash [] path) : scheme = lit "https" ∧ host = lit "github.com" ∧
    ∃ rest, (locOf slash path).names =
      [lit "grayscale-lang", lit "grayscale", lit "releases", lit "download"] ++ rest := by
  unfold isTrusted at h
  rw [Bool.and_eq_true, Bool.and_eq_true, beq_iff_eq, beq_iff_eq, List.isPrefixOf_iff_prefix] at h
  obtain ⟨⟨h1, h2⟩, t, h3⟩ := h
  refine ⟨h1, h2, ?_⟩
  have hp : path = lit "/grayscale-lang/grayscale/releases/download" ++ ch '/' :: t := by
    have hl : lit "/grayscale-lang/grayscale/releases/download/" =
        lit "/grayscale-lang/grayscale/releases/download" ++ [ch '/'] := by decide +kernel
    rw [← h3, hl, List.append_assoc]; simp
  have hs : startsSep slash path = true := by
    have h4 : startsSep slash (lit "/grayscale-lang/grayscale/releases/download") = true := by decide +kernel
    rw [hp, startsSep_append (by intro e; rw [e] at h4; cases h4), h4]
  rw [hp, comps_append (by decide)] at hd
  rw [locOf, hs, hp, follow_append (by decide)]
  have hb : follow slash ⟨true, 0, []⟩ (lit "/grayscale-lang/grayscale/releases/download") =
      ⟨true, 0, [lit "grayscale-lang", lit "grayscale", lit "releases", lit "download"]⟩ := by decide +kernel
  rw [hb]
  have key : ∀ (cs : List Str) (l : Loc), lit ".." ∉ cs → ∃ rest, (cs.foldl walk l).names = l.names ++ rest := by
    intro cs
    induction cs with
    | nil => intro l _; exact ⟨[], by simp⟩
    | cons c r ih =>
      intro l hc
      rw [List.mem_cons, not_or] at hc
      obtain ⟨x, hx⟩ := ih (walk l c) hc.2
      rw [List.foldl_cons, hx, walk]
      split
      · exact ⟨x, rfl⟩
      · rw [if_neg (fun e => hc.1 e.symm)]
        exact ⟨[c] ++ x, by simp⟩
  exact key _ _ (fun hm => hd (List.mem_append_right _ hm))

example : isTrusted (lit "https") (lit "github.com")
    (lit "/grayscale-lang/grayscale/releases/download/v1/gray.tar.gz") = true := by decide +kernel

end Verif.Props

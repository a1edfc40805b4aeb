import Verif.Model.Watch
import Verif.Model.Lexer

/-!
# C245 to C248: watching files
-/

namespace Verif.Props

open Verif Verif.Str Verif.Path Verif.Watch

namespace Wt

/-! ### The text of imports, as the parser of the compiler reads them (parser.c:1988-2103) -/

inductive Item where
  /-- `@name`, with an alias or `and use` before it -/
  | std (pre name : Str)
  /-- `"path"`, with an alias or `and use` before it -/
  | file (pre path : Str)

def Item.text : Item → Str
  | .std pre name => pre ++ 64 :: name
  | .file pre path => pre ++ 34 :: (path ++ [34])

/-- No commas, no line ends; no slashes outside of the quotes; white space neither before nor after it. -/
def Item.Ok (i : Item) : Prop :=
  44 ∉ i.text ∧ 10 ∉ i.text ∧ (∀ c, i.text.head? = some c → isSpace c = false) ∧ (∀ c, i.text.getLast? = some c → isSpace c = false) ∧
    match i with
    | .std pre name => 47 ∉ pre ∧ 47 ∉ name
    | .file pre path => 47 ∉ pre ∧ 34 ∉ path

def joinWith (c : Byte) : List Str → Str
  | [] => []
  | [p] => p
  | p :: q :: ps => p ++ c :: joinWith c (q :: ps)

def Blank (s : Str) : Prop := ∀ c ∈ s, isSpace c = true

/-- A line with these imports. -/
structure ImportLine (l : Str) (items : List Item) where
  sp1 : Str
  sp2 : Str
  blank1 : Blank sp1
  blank2 : Blank sp2
  parts : List (Str × Item × Str)
  blank : ∀ p ∈ parts, Blank p.1 ∧ Blank p.2.2
  ok : ∀ p ∈ parts, p.2.1.Ok
  line : l = sp1 ++ (lit "import " ++ joinWith 44 (parts.map fun p => p.1 ++ (p.2.1.text ++ p.2.2))) ++ sp2
  last : ∀ c, (joinWith 44 (parts.map fun p => p.1 ++ (p.2.1.text ++ p.2.2))).getLast? = some c → isSpace c = false
  noUsing : ¬ lit " using " <:+: joinWith 44 (parts.map fun p => p.1 ++ (p.2.1.text ++ p.2.2))
  items : items = parts.map fun p => p.2.1

/-- A text: each line has imports or does not begin like one. -/
structure Source where
  lines : List (Str × List Item)
  ne : lines ≠ []
  noEnd : ∀ l ∈ lines, 10 ∉ l.1
  ok : ∀ l ∈ lines, (l.2 = [] ∧ ¬ lit "import " <+: trim l.1) ∨ (l.2 ≠ [] ∧ Nonempty (ImportLine l.1 l.2))

def Source.text (s : Source) : Str := joinWith 10 (s.lines.map Prod.fst)

/-- The file that the compiler reads for an import of a path that is not a directory (main.c:905-935). -/
def target (dir path : Str) : Str :=
  if gray <:+ path then goJoin dir path else goJoin dir path ++ gray

/-! ### Lemmas -/

theorem splitAt_ne (c : Byte) (s : Str) : Watch.splitAt c s ≠ [] := by
  cases s with
  | nil => simp [Watch.splitAt]
  | cons x r =>
    simp only [Watch.splitAt]
    split
    · simp
    · split <;> simp

theorem splitAt_none {c : Byte} {s : Str} (h : c ∉ s) : Watch.splitAt c s = [s] := by
  induction s with
  | nil => rfl
  | cons x r ih =>
    simp only [List.mem_cons, not_or] at h
    rw [Watch.splitAt, if_neg (fun e => h.1 e.symm), ih h.2]

theorem splitAt_cons {c : Byte} {s r : Str} (h : c ∉ s) : Watch.splitAt c (s ++ c :: r) = s :: Watch.splitAt c r := by
  induction s with
  | nil => simp [Watch.splitAt]
  | cons x s ih =>
    simp only [List.mem_cons, not_or] at h
    rw [List.cons_append, Watch.splitAt, if_neg (fun e => h.1 e.symm), ih h.2]

theorem splitAt_join {c : Byte} : ∀ {ps : List Str}, ps ≠ [] → (∀ p ∈ ps, c ∉ p) → Watch.splitAt c (joinWith c ps) = ps
  | [], h, _ => absurd rfl h
  | [p], _, h => splitAt_none (h p (by simp))
  | p :: q :: ps, _, h => by
    rw [joinWith, splitAt_cons (h p (by simp)), splitAt_join (by simp) (fun x hx => h x (List.mem_cons_of_mem _ hx))]

theorem dropWhile_blank {s r : Str} (h : Blank s) (hr : ∀ c, r.head? = some c → isSpace c = false) :
    (s ++ r).dropWhile isSpace = r := by
  induction s with
  | nil =>
    cases r with
    | nil => rfl
    | cons c r => rw [List.nil_append, List.dropWhile_cons_of_neg (by simp [hr c rfl])]
  | cons x s ih =>
    rw [List.cons_append, List.dropWhile_cons_of_pos (h x (by simp))]
    exact ih fun c hc => h c (by simp [hc])

theorem trim_mid {a s b : Str} (ha : Blank a) (hb : Blank b) (h1 : ∀ c, s.head? = some c → isSpace c = false)
    (h2 : ∀ c, s.getLast? = some c → isSpace c = false) : trim (a ++ (s ++ b)) = s := by
  unfold trim
  cases hs : s with
  | nil =>
    have : (a ++ ([] ++ b)).dropWhile isSpace = [] := by
      rw [List.nil_append]
      have hab : Blank (a ++ b) := fun c hc => (List.mem_append.1 hc).elim (ha c) (hb c)
      have := dropWhile_blank (r := []) hab (by simp)
      simpa using this
    rw [this]
    rfl
  | cons x r =>
    rw [dropWhile_blank ha (by intro c hc; rw [List.cons_append] at hc; exact h1 c (by rw [hs]; exact hc)), List.reverse_append,
      dropWhile_blank (fun c hc => hb c (List.mem_reverse.1 hc)) (by
        intro c hc
        rw [List.head?_reverse] at hc
        exact h2 c (by rw [hs]; exact hc)), List.reverse_reverse]

theorem before_id {n : Str} : ∀ {s : Str}, ¬ n <:+: s → before n s = s
  | [], _ => rfl
  | c :: r, h => by
    rw [before, if_neg, before_id (fun hh => h (hh.trans (List.suffix_cons c r).isInfix))]
    intro hp
    exact h (List.isPrefixOf_iff_prefix.1 hp).isInfix

/-- The last element between slashes. -/
theorem last_split (s : Str) : 47 ∉ s ∨ ∃ q seg, s = q ++ 47 :: seg ∧ 47 ∉ seg := by
  induction s with
  | nil => exact .inl (by simp)
  | cons c s ih =>
    rcases ih with h | ⟨q, seg, h, h'⟩
    · by_cases hc : c = 47
      · exact .inr ⟨[], s, by rw [hc]; rfl, h⟩
      · exact .inl fun hm => (List.mem_cons.1 hm).elim (fun e => hc e.symm) h
    · exact .inr ⟨c :: q, seg, by rw [h]; rfl, h'⟩

theorem elements_ne (p : Str) : elements p ≠ [] := by
  cases p with
  | nil => simp [elements]
  | cons c r =>
    simp only [elements]
    split
    · simp
    · split <;> simp

theorem elements_none {p : Str} (h : 47 ∉ p) : elements p = [p] := by
  induction p with
  | nil => rfl
  | cons c r ih =>
    simp only [List.mem_cons, not_or] at h
    rw [elements, if_neg (fun e => h.1 e.symm), ih h.2]

theorem elements_last {a seg : Str} (h : 47 ∉ seg) : elements (a ++ 47 :: seg) = elements a ++ [seg] := by
  induction a with
  | nil => simp [elements, elements_none h]
  | cons c r ih =>
    rw [List.cons_append, elements, elements]
    by_cases hc : c = 47
    · rw [if_pos hc, if_pos hc, ih]; rfl
    · rw [if_neg hc, if_neg hc, ih]
      cases he : elements r with
      | nil => exact absurd he (elements_ne r)
      | cons p ps => rfl

theorem glue_last (l : List Str) (seg : Str) : ∃ pre, glueSlash (l ++ [seg]) = pre ++ seg ∧ (pre = [] ∨ pre.getLast? = some 47) := by
  induction l with
  | nil => exact ⟨[], rfl, .inl rfl⟩
  | cons p l ih =>
    obtain ⟨pre, h, hp⟩ := ih
    cases l with
    | nil => exact ⟨p ++ [47], by simp [glueSlash], .inr (by simp)⟩
    | cons q l =>
      refine ⟨p ++ 47 :: pre, ?_, .inr ?_⟩
      · show p ++ 47 :: glueSlash (q :: l ++ [seg]) = _
        rw [h]; simp
      · rcases hp with hp | hp
        · simp [hp]
        · rw [List.getLast?_append]
          cases pre with
          | nil => simp at hp
          | cons x pre => rw [List.getLast?_cons_cons, hp]; rfl

/-- The last element of a path stays when it is cleaned. -/
theorem clean_last {a seg : Str} (h : 47 ∉ seg) (h1 : seg ≠ []) (h2 : seg ≠ [46]) (h3 : seg ≠ [46, 46]) :
    ∃ pre, goClean (a ++ 47 :: seg) = pre ++ seg ∧ (pre = [] ∨ pre.getLast? = some 47) := by
  obtain ⟨pre, he, hp⟩ := glue_last ((elements a).foldl (cleanStep (goIsAbs (a ++ 47 :: seg))) []).reverse seg
  have hst : (elements (a ++ 47 :: seg)).foldl (cleanStep (goIsAbs (a ++ 47 :: seg))) [] =
      seg :: (elements a).foldl (cleanStep (goIsAbs (a ++ 47 :: seg))) [] := by
    rw [elements_last h, List.foldl_append, List.foldl_cons, List.foldl_nil]
    unfold cleanStep
    rw [if_neg (fun e => e.elim h1 h2), if_neg h3]
  have hout : (if goIsAbs (a ++ 47 :: seg) then [47] else []) ++
      glueSlash ((elements (a ++ 47 :: seg)).foldl (cleanStep (goIsAbs (a ++ 47 :: seg))) []).reverse =
      ((if goIsAbs (a ++ 47 :: seg) then [47] else []) ++ pre) ++ seg := by
    rw [hst, List.reverse_cons, he, List.append_assoc]
  have hg : goClean (a ++ 47 :: seg) = ((if goIsAbs (a ++ 47 :: seg) then [47] else []) ++ pre) ++ seg := by
    unfold goClean
    simp only [hout]
    rw [if_neg (by simp [h1])]
  rw [hg]
  refine ⟨_, rfl, ?_⟩
  cases goIsAbs (a ++ 47 :: seg) with
  | false => simpa using hp
  | true =>
    rcases hp with hp | hp
    · simp [hp]
    · refine .inr ?_
      rw [List.getLast?_append, hp]; rfl

theorem base_of {pre seg : Str} (h : 47 ∉ seg) (h1 : seg ≠ []) (hp : pre = [] ∨ pre.getLast? = some 47) : goBase (pre ++ seg) = seg := by
  unfold goBase
  rw [if_neg (by simp [h1]), List.reverse_append]
  cases hs : seg.reverse with
  | nil => exact absurd (List.reverse_eq_nil_iff.1 hs) h1
  | cons x r =>
    have hx : ∀ y ∈ x :: r, y ≠ 47 := fun y hy e => h (by rw [← e]; exact List.mem_reverse.1 (by rw [hs]; exact hy))
    rw [List.cons_append, List.dropWhile_cons_of_neg (by simpa using hx x (by simp))]
    have : ((x :: r) ++ pre.reverse).takeWhile (fun c => c != 47) = x :: r := by
      rw [List.takeWhile_append_of_pos (by intro y hy; simpa using hx y hy)]
      rcases hp with hp | hp
      · simp [hp]
      · rw [← List.head?_reverse] at hp
        cases hr : pre.reverse with
        | nil => simp
        | cons z t =>
          rw [hr] at hp
          cases hp
          simp
    simp only
    rw [← List.cons_append, this, ← hs, List.reverse_reverse]

/-- What the scan makes of an import: it is skipped, or its last element has a quote or an `@`. -/
def Odd (imp : Str) : Prop :=
  lit "@" <+: imp ∨ ∃ seg, 47 ∉ seg ∧ (34 ∈ seg ∨ 64 ∈ seg) ∧ (imp = seg ∨ ∃ q, imp = q ++ 47 :: seg)

theorem item_odd {i : Item} (h : i.Ok) : Odd i.text := by
  obtain ⟨-, -, -, -, h⟩ := h
  cases i with
  | std pre name => exact .inr ⟨pre ++ 64 :: name, fun hm => (List.mem_append.1 hm).elim h.1 fun hm => (List.mem_cons.1 hm).elim (by decide) h.2, .inr (by simp), .inl rfl⟩
  | file pre path =>
    rcases last_split (Item.file pre path).text with hn | ⟨q, seg, he, hn⟩
    · exact .inr ⟨_, hn, .inl (by simp [Item.text]), .inl rfl⟩
    · refine .inr ⟨seg, hn, .inl ?_, .inr ⟨q, he⟩⟩
      have : (Item.file pre path).text.getLast? = some 34 := by
        show (pre ++ 34 :: (path ++ [34])).getLast? = _
        rw [show pre ++ 34 :: (path ++ [34]) = (pre ++ 34 :: path) ++ [34] by simp, List.getLast?_concat]
      rw [he, List.getLast?_append] at this
      cases seg with
      | nil => simp at this
      | cons x t =>
        rw [List.getLast?_cons_cons] at this
        cases hl : (x :: t).getLast? with
        | none => simp at hl
        | some z =>
          rw [hl] at this
          have h34 : z = 34 := by simpa using this
          rw [← h34]
          exact List.mem_of_getLast? hl

theorem add_odd {w : World} {dir main imp : Str} (hw : ∀ p, (34 ∈ goBase p ∨ 64 ∈ goBase p) → w.stat p = none) (hd : dir ≠ [])
    (h : Odd imp) : addImport w dir [main] imp = [main] := by
  unfold addImport
  by_cases h0 : (lit "@").isPrefixOf imp = true
  · rw [if_pos h0]
  · rw [if_neg h0]
    rcases h with h | ⟨seg, hs, hc, hi⟩
    · exact absurd (List.isPrefixOf_iff_prefix.2 h) h0
    · have h1 : seg ≠ [] := by rintro rfl; simp at hc
      have h2 : seg ≠ [46] := by rintro rfl; simp at hc
      have h3 : seg ≠ [46, 46] := by rintro rfl; simp at hc
      have hj : ∃ pre, goJoin dir imp = pre ++ seg ∧ (pre = [] ∨ pre.getLast? = some 47) := by
        have hne : imp ≠ [] := by
          rcases hi with rfl | ⟨q, rfl⟩
          · exact h1
          · simp
        unfold goJoin
        rw [if_neg hd, if_neg hne]
        rcases hi with rfl | ⟨q, rfl⟩
        · exact clean_last hs h1 h2 h3
        · have := clean_last (a := dir ++ 47 :: q) hs h1 h2 h3
          simpa using this
      obtain ⟨pre, hj, hp⟩ := hj
      have n1 : w.stat (goJoin dir imp) = none := hw _ (by rw [hj, base_of hs h1 hp]; exact hc)
      have n2 : w.stat (goJoin dir imp ++ gray) = none := by
        refine hw _ ?_
        rw [hj, List.append_assoc, base_of (by
          rw [List.mem_append]
          exact fun e => e.elim hs (by decide)) (by simp [h1]) hp]
        simp only [List.mem_append]
        exact hc.elim (fun h => .inl (.inl h)) fun h => .inr (.inl h)
      simp only [n1, n2]
      split <;> rfl

theorem line_odd {l : Str} {items : List Item} (h : ImportLine l items) (hne : items ≠ []) : ∀ imp ∈ lineImports l, Odd imp := by
  obtain ⟨sp1, sp2, hb1, hb2, parts, hb, hok, hl, hlast, hu, hit⟩ := h
  have hpn : parts ≠ [] := by rintro rfl; exact hne hit
  intro imp himp
  unfold lineImports at himp
  have ht : trim l = lit "import " ++ joinWith 44 (parts.map fun p => p.1 ++ (p.2.1.text ++ p.2.2)) := by
    rw [hl, List.append_assoc]
    refine trim_mid hb1 hb2 (fun c hc => ?_) (fun c hc => ?_)
    · have : (lit "import " ++ joinWith 44 (parts.map fun p => p.1 ++ (p.2.1.text ++ p.2.2))).head? = some 105 := rfl
      rw [this] at hc
      cases hc
      decide
    · rw [List.getLast?_append] at hc
      cases hj : (joinWith 44 (parts.map fun p => p.1 ++ (p.2.1.text ++ p.2.2))).getLast? with
      | none =>
        rw [List.getLast?_eq_none_iff] at hj
        cases parts with
        | nil => exact absurd rfl hpn
        | cons p ps =>
          have hpt : p.2.1.text ≠ [] := by
            cases p.2.1 <;> simp [Item.text]
          cases ps with
          | nil => simp [joinWith, hpt] at hj
          | cons q ps => simp [joinWith] at hj
      | some z =>
        rw [hj] at hc
        cases hc
        exact hlast _ hj
  simp only [ht] at himp
  rw [if_pos (List.isPrefixOf_iff_prefix.2 (List.prefix_append _ _)), show (7 : Nat) = (lit "import ").length from rfl, List.drop_left,
    before_id hu, splitAt_join (by simp [hpn]) (by
      intro p hp
      rw [List.mem_map] at hp
      obtain ⟨x, hx, rfl⟩ := hp
      have h44 : ∀ s : Str, Blank s → 44 ∉ s := fun s hs hm => absurd (hs _ hm) (by decide)
      simp only [List.mem_append, not_or]
      exact ⟨h44 _ (hb x hx).1, (hok x hx).1, h44 _ (hb x hx).2⟩)] at himp
  rw [List.mem_filter, List.mem_map] at himp
  obtain ⟨⟨y, hy, rfl⟩, -⟩ := himp
  rw [List.mem_map] at hy
  obtain ⟨x, hx, rfl⟩ := hy
  rw [trim_mid (hb x hx).1 (hb x hx).2 (hok x hx).2.2.1 (hok x hx).2.2.2.1]
  exact item_odd (hok x hx)

theorem scan_odd (s : Source) (buffer : Nat) : ∀ imp ∈ scanImports buffer s.text, Odd imp := by
  intro imp h
  unfold scanImports at h
  rw [List.mem_flatMap] at h
  obtain ⟨l, hl, hi⟩ := h
  have hl' : l ∈ Watch.splitAt 10 s.text := (List.takeWhile_prefix _).sublist.subset hl
  unfold Source.text at hl'
  rw [splitAt_join (by simp [s.ne]) (by
    intro p hp
    rw [List.mem_map] at hp
    obtain ⟨x, hx, rfl⟩ := hp
    exact s.noEnd x hx), List.mem_map] at hl'
  obtain ⟨x, hx, rfl⟩ := hl'
  rcases s.ok x hx with ⟨-, hn⟩ | ⟨hne, ⟨hil⟩⟩
  · unfold lineImports at hi
    simp only at hi
    rw [if_neg (fun e => hn (List.isPrefixOf_iff_prefix.1 e))] at hi
    simp at hi
  · exact line_odd hil hne imp hi

end Wt

open Wt

/-- C245: for an import that the compiler accepts, the file it reads is watched. -/
def C245_statement : Prop :=
  ∀ (w : World) (main dir : Str) (s : Source), dir ≠ [] → ∀ l ∈ s.lines, ∀ pre path, Item.file pre path ∈ l.2 →
    w.stat (target dir path) = some .file → target dir path ∈ collect w main dir s.text

/-- C245 fails in general: of a text whose imports the compiler accepts nothing but the main file is ever watched, unless there are files
with quotes or `@` in their names. The scan takes the quotes for a part of the path. -/
theorem C245_nothing_watched (w : World) (main dir : Str) (s : Source) (hd : dir ≠ [])
    (hw : ∀ p, (34 ∈ goBase p ∨ 64 ∈ goBase p) → w.stat p = none) : collect w main dir s.text = [main] := by
  unfold collect
  have h := scan_odd s maxLine
  generalize scanImports maxLine s.text = l at h
  induction l with
  | nil => rfl
  | cons x l ih =>
    rw [List.foldl_cons, add_odd hw hd (h x (by simp))]
    exact ih fun y hy => h y (by simp [hy])

namespace Wt

/-- `import "./u.gray"` -/
def exItem : Item := .file [] (lit "./u.gray")

theorem exOk : exItem.Ok := by
  refine ⟨by decide +kernel, by decide +kernel, fun c hc => ?_, fun c hc => ?_, by decide +kernel, by decide +kernel⟩
  · have : some 34 = some c := hc
    cases this
    rfl
  · have : some 34 = some c := hc
    cases this
    rfl

def exLine : ImportLine (lit "import " ++ exItem.text) [exItem] where
  sp1 := []
  sp2 := []
  blank1 := by simp [Blank]
  blank2 := by simp [Blank]
  parts := [([], exItem, [])]
  blank := by simp [Blank]
  ok := by
    intro p hp
    simp only [List.mem_singleton] at hp
    subst hp
    exact exOk
  line := by
    have : lit "import " ++ exItem.text = [] ++ (lit "import " ++ ([] ++ (exItem.text ++ []))) ++ [] := by
      simp only [List.nil_append, List.append_nil]
    exact this
  last := by
    intro c hc
    have : some 34 = some c := hc
    cases this
    rfl
  noUsing := by
    have : ¬ lit " using " <:+: [] ++ (exItem.text ++ []) := by decide +kernel
    exact this
  items := rfl

def exSource : Source where
  lines := [(lit "import " ++ exItem.text, [exItem])]
  ne := by simp
  noEnd := by
    intro l hl
    simp only [List.mem_singleton] at hl
    subst hl
    decide +kernel
  ok := by
    intro l hl
    simp only [List.mem_singleton] at hl
    subst hl
    exact .inr ⟨by simp, ⟨exLine⟩⟩

def exWorld : World := ⟨fun p => if p = lit "/d/u.gray" then some .file else none, fun _ => []⟩

end Wt

theorem C245_imports_fails : ¬ C245_statement := by
  intro h
  have h1 := h exWorld (lit "/d/m.gray") (lit "/d") exSource (by decide) (lit "import " ++ exItem.text, [exItem]) (by simp [exSource]) []
    (lit "./u.gray") (by simp [exItem]) (by decide +kernel)
  have h2 : target (lit "/d") (lit "./u.gray") ∉ collect exWorld (lit "/d/m.gray") (lit "/d") exSource.text := by decide +kernel
  exact h2 h1

/-- C245: what the scan was made for, and the compiler refuses: paths without quotes. -/
theorem C245_bare_witness :
    collect exWorld (lit "/d/m.gray") (lit "/d") (lit "import ./u\ndo main() {}") = [lit "/d/m.gray", lit "/d/u.gray"] := by decide +kernel

namespace Wt

theorem mem_addNew {l : List Str} {f x : Str} (h : x ∈ l) : x ∈ addNew l f := by
  unfold addNew; split
  · exact h
  · exact List.mem_append_left _ h

theorem mem_addNew_self {l : List Str} {f : Str} : f ∈ addNew l f := by
  unfold addNew; split
  · assumption
  · simp

theorem mem_foldNew {fs : List Str} : ∀ {l : List Str} {x : Str}, x ∈ l → x ∈ fs.foldl addNew l := by
  induction fs with
  | nil => intro l x h; exact h
  | cons f fs ih => intro l x h; exact ih (mem_addNew h)

theorem mem_addImport {w : World} {dir : Str} {l : List Str} {i x : Str} (h : x ∈ l) : x ∈ addImport w dir l i := by
  unfold addImport
  split
  · exact h
  · simp only
    split
    · split
      · exact mem_addNew h
      · exact h
    · split
      · exact mem_foldNew h
      · split
        · exact mem_addNew h
        · exact h

theorem mem_foldImport {w : World} {dir : Str} {is : List Str} : ∀ {l : List Str} {x : Str}, x ∈ l → x ∈ is.foldl (addImport w dir) l := by
  induction is with
  | nil => intro l x h; exact h
  | cons f fs ih => intro l x h; exact ih (mem_addImport h)

end Wt

/-- C245: the main file is watched, and every path that the scan finds and does not skip, if it is a file whose name ends in `.gray`.
Missing: the paths are not those of the imports, see `C245_nothing_watched`. -/
theorem C245_scanned_partial (w : World) (main dir text imp : Str) (h : imp ∈ scanImports maxLine text) (hs : ¬ lit "@" <+: imp)
    (hf : w.stat (goJoin dir imp) = some .file) (hg : gray <:+ goJoin dir imp) :
    main ∈ collect w main dir text ∧ goJoin dir imp ∈ collect w main dir text := by
  unfold collect
  refine ⟨mem_foldImport (by simp), ?_⟩
  obtain ⟨a, b, e⟩ := List.append_of_mem h
  rw [e, List.foldl_append, List.foldl_cons]
  apply mem_foldImport
  unfold addImport
  rw [if_neg (fun e => hs (List.isPrefixOf_iff_prefix.1 e))]
  simp only
  rw [if_pos (List.isSuffixOf_iff_suffix.2 hg), if_pos (by rw [hf]; rfl)]
  exact mem_addNew_self

/-! ### C246: changes -/

/-- C246: after every change of a watched file the program runs. -/
def C246_statement : Prop :=
  ∀ (names : List Nat) (cs : List Change) (d : Disk), (∀ n ∈ names, d.watched (d.file n) = true ∧ d.file n < d.fresh) →
    (∀ n ∈ names, ∀ m ∈ names, d.file n = d.file m → n = m) →
    (∀ c ∈ cs, ∃ n ∈ names, c = .write n ∨ c = .replace n) → ∀ b ∈ watchRuns names d cs, b = true

/-- C246 fails: a file that is replaced by a new one, as most editors do it. -/
theorem C246_changes_fails : ¬ C246_statement := by
  intro h
  have := h [0] [.replace 0] ⟨fun _ => 0, fun n => n == 0, 1⟩ (by simp) (by simp) (by simp) false (by simp [watchRuns, happen])
  cases this

namespace Wt

theorem dead (names : List Nat) : ∀ (cs : List Change) (d : Disk), (∀ m, d.watched (d.file m) = false) → (∀ f, d.fresh ≤ f → d.watched f = false) →
    ∀ b ∈ watchRuns names d cs, b = false
  | [], _, _, _ => by simp [watchRuns]
  | c :: cs, d, h1, h2 => by
    have hc : (happen d c).1 = false := by
      cases c with
      | write n => exact h1 n
      | replace n => rfl
    intro b hb
    simp only [watchRuns, hc, Bool.false_eq_true, if_false, List.mem_cons] at hb
    rcases hb with hb | hb
    · exact hb
    · refine dead names cs (happen d c).2 ?_ ?_ b hb
      · cases c with
        | write n => exact h1
        | replace n =>
          intro m
          simp only [happen]
          by_cases hm : m = n
          · rw [if_pos hm, h2 _ (Nat.le_refl _), Bool.and_false]
          · rw [if_neg hm, h1 m, Bool.and_false]
      · cases c with
        | write n => exact h2
        | replace n =>
          intro f hf
          simp only [happen] at hf ⊢
          rw [h2 f (by omega), Bool.and_false]

end Wt

/-- C246: once the only watched file has been replaced, nothing that happens to any file is ever noticed again. -/
theorem C246_lost_forever (n : Nat) (d : Disk) (cs : List Change) (hw : ∀ f, d.watched f = true ↔ f = d.file n) (hn : d.file n < d.fresh) :
    ∀ b ∈ watchRuns [n] d (.replace n :: cs), b = false := by
  intro b hb
  have hno : ∀ f, (f != d.file n && d.watched f) = false := by
    intro f
    by_cases hf : f = d.file n
    · simp [hf]
    · have : d.watched f = false := eq_false_of_ne_true fun e => hf ((hw f).1 e)
      rw [this, Bool.and_false]
  simp only [watchRuns, happen, Bool.false_eq_true, if_false, List.mem_cons] at hb
  rcases hb with hb | hb
  · exact hb
  · exact dead [n] cs _ (fun m => hno _) (fun f _ => hno _) b hb

/-- C246: a file that is written to in place makes the program run, whatever came before, as long as nothing was replaced. Missing:
replaced files. -/
theorem C246_changes_partial (names : List Nat) : ∀ (cs : List Change) (d : Disk), (∀ n ∈ names, d.watched (d.file n) = true) →
    (∀ c ∈ cs, ∃ n ∈ names, c = .write n) → ∀ b ∈ watchRuns names d cs, b = true
  | [], _, _, _ => by simp [watchRuns]
  | c :: cs, d, h1, h2 => by
    obtain ⟨n, hn, rfl⟩ := h2 c (by simp)
    intro b hb
    simp only [watchRuns, happen, h1 n hn, if_true, List.mem_cons] at hb
    rcases hb with hb | hb
    · exact hb
    · exact C246_changes_partial names cs (refresh names d) (fun m hm => by simp [refresh, h1 m hm]) (fun c hc => h2 c (by simp [hc])) b hb

/-- C246: a replaced file is noticed again after another watched file has been written to. -/
theorem C246_recovers_partial (n m : Nat) (d : Disk) (hnm : d.file m ≠ d.file n) (hm : d.watched (d.file m) = true) :
    watchRuns [n, m] d [.replace n, .write n, .write m, .write n] = [false, d.watched d.fresh && d.fresh != d.file n, true, true] := by
  have hmn : m ≠ n := fun e => hnm (by rw [e])
  have : (d.file m != d.file n) = true := by simpa using hnm
  cases hx : (d.fresh != d.file n && d.watched d.fresh) with
  | false =>
    have hy : (d.watched d.fresh && d.fresh != d.file n) = false := by rw [Bool.and_comm]; exact hx
    simp [watchRuns, happen, refresh, hmn, this, hm, hx, hy]
  | true =>
    have hy : (d.watched d.fresh && d.fresh != d.file n) = true := by rw [Bool.and_comm]; exact hx
    simp [watchRuns, happen, refresh, hmn, this, hm, hx, hy]

/-! ### C247: the timer -/

/-- C247: a change makes the program run after a bounded time. -/
def C247_statement : Prop := ∃ N, ∀ ts : List Nat, ts.Pairwise (· ≤ ·) → ∀ t ∈ ts, ∃ r ∈ runs none ts, t ≤ r ∧ r ≤ t + N

namespace Wt

theorem runs_iff : ∀ (ts : List Nat) (t0 r : Nat), (t0 :: ts).Pairwise (· ≤ ·) →
    (r ∈ runs (some (t0 + interval)) ts ↔ ∃ t ∈ t0 :: ts, r = t + interval ∧ ∀ t' ∈ t0 :: ts, t < t' → t + interval ≤ t')
  | [], t0, r, _ => by simp [runs]
  | t1 :: ts, t0, r, h => by
    rw [List.pairwise_cons] at h
    have ih := runs_iff ts t1 r h.2
    have h01 : t0 ≤ t1 := h.1 t1 (by simp)
    have h1 : ∀ t ∈ t1 :: ts, t1 ≤ t := by
      intro t ht
      rcases List.mem_cons.1 ht with rfl | ht
      · exact Nat.le_refl _
      · exact (List.pairwise_cons.1 h.2).1 t ht
    rw [runs, List.mem_append, ih]
    constructor
    · rintro (hr | ⟨t, ht, e, hh⟩)
      · simp only [Option.toList, List.mem_filter, List.mem_singleton, decide_eq_true_eq] at hr
        refine ⟨t0, by simp, hr.1, fun t' ht' hlt => ?_⟩
        rcases List.mem_cons.1 ht' with rfl | ht'
        · omega
        · have := h1 t' ht'; omega
      · refine ⟨t, List.mem_cons_of_mem _ ht, e, fun t' ht' hlt => ?_⟩
        rcases List.mem_cons.1 ht' with rfl | ht'
        · have := h1 t ht; omega
        · exact hh t' ht' hlt
    · rintro ⟨t, ht, e, hh⟩
      rcases List.mem_cons.1 ht with rfl | ht
      · by_cases hlt : t < t1
        · refine .inl ?_
          simp only [Option.toList, List.mem_filter, List.mem_singleton, decide_eq_true_eq]
          have := hh t1 (by simp) hlt
          exact ⟨e, by omega⟩
        · have : t = t1 := by omega
          subst this
          exact .inr ⟨t, by simp, e, fun t' ht' => hh t' (List.mem_cons_of_mem _ ht')⟩
      · exact .inr ⟨t, ht, e, fun t' ht' => hh t' (List.mem_cons_of_mem _ ht')⟩

theorem last_le : ∀ (ts : List Nat), ts.Pairwise (· ≤ ·) → ts ≠ [] → ∃ m ∈ ts, ∀ t ∈ ts, t ≤ m
  | [], _, h => absurd rfl h
  | [t], _, _ => ⟨t, by simp, by simp⟩
  | t :: u :: ts, h, _ => by
    obtain ⟨m, hm, hh⟩ := last_le (u :: ts) (List.pairwise_cons.1 h).2 (by simp)
    refine ⟨m, List.mem_cons_of_mem _ hm, fun x hx => ?_⟩
    rcases List.mem_cons.1 hx with rfl | hx
    · exact (List.pairwise_cons.1 h).1 m hm
    · exact hh x hx

end Wt

/-- C247: the program runs exactly 100 milliseconds after each event that no other event follows within that time. -/
theorem C247_runs (ts : List Nat) (r : Nat) (h : ts.Pairwise (· ≤ ·)) :
    r ∈ runs none ts ↔ ∃ t ∈ ts, r = t + 100 ∧ ∀ t' ∈ ts, t < t' → t + 100 ≤ t' := by
  cases ts with
  | nil => simp [runs]
  | cons t ts =>
    have : runs none (t :: ts) = runs (some (t + interval)) ts := by simp [runs]
    rw [this, runs_iff ts t r h]
    rfl

/-- C247: no change is lost: some run begins after it. -/
theorem C247_followed_partial (ts : List Nat) (h : ts.Pairwise (· ≤ ·)) (t : Nat) (ht : t ∈ ts) : ∃ r ∈ runs none ts, t + 100 ≤ r := by
  obtain ⟨m, hm, hh⟩ := last_le ts h (List.ne_nil_of_mem ht)
  exact ⟨m + 100, (C247_runs ts _ h).2 ⟨m, hm, rfl, fun t' ht' hl => by have := hh t' ht'; omega⟩, by have := hh t ht; omega⟩

/-- C247 fails: events that come faster than every 100 milliseconds put the run off for ever. -/
theorem C247_bounded_fails : ¬ C247_statement := by
  rintro ⟨N, h⟩
  have hp : (List.range (N + 1)).Pairwise (· ≤ ·) := List.pairwise_le_range
  obtain ⟨r, hr, -, hN⟩ := h (List.range (N + 1)) hp 0 (by simp)
  obtain ⟨t, ht, rfl, hh⟩ := (C247_runs _ _ hp).1 hr
  simp only [List.mem_range] at ht hh
  by_cases e : t < N
  · have := hh (t + 1) (by omega) (by omega)
    omega
  · omega

/-- C247: two runs begin at least 100 milliseconds apart. -/
theorem C247_apart (ts : List Nat) (h : ts.Pairwise (· ≤ ·)) (r s : Nat) (hr : r ∈ runs none ts) (hs : s ∈ runs none ts) (hne : r < s) :
    r + 100 ≤ s := by
  obtain ⟨t, ht, rfl, h1⟩ := (C247_runs _ _ h).1 hr
  obtain ⟨u, hu, rfl, _⟩ := (C247_runs _ _ h).1 hs
  have := h1 u hu (by omega)
  omega

/-- C247: a run does not wait for the one before it to end. A program that takes longer than 100 milliseconds runs twice at a time. -/
theorem C247_overlap_witness : runs none [0, 100] = [100, 200] := by decide

/-! ### C248: the main file -/

namespace Wt

/-- The words `do`, `main` and `(`, one after the other. -/
def mainWords : List Verif.Lexer.Tok → Bool
  | a :: b :: c :: r => (a.text == lit "do" && b.text == lit "main" && c.text == lit "(") || mainWords (b :: c :: r)
  | _ => false

/-- The compiler finds a function `main` in the text. -/
def declares (text : Str) : Bool := match Verif.Lexer.lex text with | some l => mainWords l | none => false

end Wt

/-- C248: the file found is the one with the function `main`. -/
def C248_statement : Prop :=
  ∀ (files : List (Str × Str)) (f : Str), findMain files = .file f ↔ ∃ a t b, files = a ++ (f, t) :: b ∧ declares t = true ∧ ∀ x ∈ a ++ b, declares x.2 = false

/-- C248 fails: a line in a comment counts. -/
theorem C248_main_fails : ¬ C248_statement := by
  intro h
  have := (h [(lit "a", lit "/*\ndo main() {\n*/")] (lit "a")).1 (by decide +kernel)
  obtain ⟨a, t, b, e, hd, -⟩ := this
  cases a with
  | nil =>
    simp only [List.nil_append, List.cons.injEq, Prod.mk.injEq] at e
    rw [← e.1.2] at hd
    exact absurd hd (by decide +kernel)
  | cons x a => simp at e

/-- C248: more white space, and the function is not found, though the compiler takes it. -/
theorem C248_space_witness : findMain [(lit "a", lit "do  main() {}")] = .noMain ∧ declares (lit "do  main() {}") = true ∧
    findMain [(lit "a", lit "do main () {}")] = .noMain ∧ declares (lit "do main () {}") = true := by decide +kernel

/-- C248: nor is it found after a line that does not fit in the buffer. -/
theorem C248_long_line_witness (n : Nat) (l rest : Str) (h : 10 ∉ l) (hl : n ≤ l.length) : hasMain n (l ++ 10 :: rest) = false := by
  unfold hasMain scan
  rw [splitAt_cons h, List.takeWhile_cons_of_neg (by simpa using hl)]
  rfl

/-- C248: the file found is the only one that has, before any long line, a line that begins with `do main(` after white space. Missing:
such lines in comments, and other ways to write the function. -/
theorem C248_main_partial (files : List (Str × Str)) (f : Str) :
    findMain files = .file f ↔ ∃ a t b, files = a ++ (f, t) :: b ∧ hasMain maxLine t = true ∧ ∀ x ∈ a ++ b, hasMain maxLine x.2 = false := by
  unfold findMain
  constructor
  · intro h
    split at h
    · cases h
    · split at h
      · cases h
      · rename_i g hg
        cases h
        have hm : g ∈ files.filter (fun f => hasMain maxLine f.2) := by rw [hg]; simp
        rw [List.mem_filter] at hm
        obtain ⟨a, b, e⟩ := List.append_of_mem hm.1
        refine ⟨a, g.2, b, e, hm.2, fun x hx => eq_false_of_ne_true fun hx2 => ?_⟩
        rw [e, List.filter_append, List.filter_cons_of_pos (by exact hm.2)] at hg
        have hlen := congrArg List.length hg
        simp only [List.length_append, List.length_cons, List.length_nil] at hlen
        rcases List.mem_append.1 hx with hx | hx
        · have : x ∈ a.filter (fun f => hasMain maxLine f.2) := List.mem_filter.2 ⟨hx, hx2⟩
          have := List.length_pos_of_mem this
          omega
        · have : x ∈ b.filter (fun f => hasMain maxLine f.2) := List.mem_filter.2 ⟨hx, hx2⟩
          have := List.length_pos_of_mem this
          omega
      · cases h
  · rintro ⟨a, t, b, rfl, ht, hh⟩
    have e1 : a.filter (fun f => hasMain maxLine f.2) = [] := List.filter_eq_nil_iff.2 fun x hx => by simp [hh x (by simp [hx])]
    have e2 : b.filter (fun f => hasMain maxLine f.2) = [] := List.filter_eq_nil_iff.2 fun x hx => by simp [hh x (by simp [hx])]
    rw [if_neg (by simp), List.filter_append, List.filter_cons_of_pos (by exact ht), e1, e2]
    rfl

theorem Wt.takeWhile_all {lines : List Str} {n : Nat} (hs : ∀ l ∈ lines, l.length < n) : lines.takeWhile (fun l => l.length < n) = lines := by
  induction lines with
  | nil => rfl
  | cons x l ih => rw [List.takeWhile_cons_of_pos (by simpa using hs x (by simp)), ih fun y hy => hs y (by simp [hy])]

/-- C248: what such a line is. -/
theorem C248_line_partial (lines : List Str) (hne : lines ≠ []) (h : ∀ l ∈ lines, 10 ∉ l) (hs : ∀ l ∈ lines, l.length < maxLine) :
    hasMain maxLine (joinWith 10 lines) = true ↔ ∃ l ∈ lines, lit "do main(" <+: trim l := by
  unfold hasMain scan
  rw [splitAt_join hne h, takeWhile_all hs, List.any_eq_true]
  simp only [List.isPrefixOf_iff_prefix]

end Verif.Props

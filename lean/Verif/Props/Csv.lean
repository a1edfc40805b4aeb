import Verif.Model.Csv

/-! C29, C90: the csv module. -/
namespace Verif.Props
open Verif Verif.Str Verif.Csv

/-! ### Texts and their meaning, independent of the parser -/

/-- A field as it stands in a file: quoted or plain, with the value it means. -/
structure CsvCell where
  quoted : Bool
  val : Str

/-- RFC 4180 section 2 rule 7: a quote inside a quoted field is written twice. -/
def doubled : Str → Str
  | [] => []
  | c :: r => if c = quote then c :: c :: doubled r else c :: doubled r

def CsvCell.text (c : CsvCell) : Str :=
  if c.quoted then quote :: (doubled c.val ++ [quote]) else c.val

/-- RFC 4180: a plain field has no comma, line break or quote. -/
def CsvCell.rfc (c : CsvCell) : Prop :=
  c.quoted = false → ∀ b ∈ c.val, b ≠ comma ∧ b ≠ nl ∧ b ≠ cr ∧ b ≠ quote

/-- Fields separated by commas. -/
def csvLine : List CsvCell → Str
  | [] => []
  | [c] => c.text
  | c :: d :: r => c.text ++ comma :: csvLine (d :: r)

def lineEnd (crlf : Bool) : Str := if crlf then [cr, nl] else [nl]

/-- Lines with their ends, then a last line without one. -/
def csvDoc : List (List CsvCell × Bool) → List CsvCell → Str
  | [], final => csvLine final
  | (cs, e) :: r, final => csvLine cs ++ lineEnd e ++ csvDoc r final

/-- The values of a document; there is no last record if the last line is empty. -/
def csvVals (rows : List (List CsvCell × Bool)) (final : List CsvCell) : List (List Str) :=
  rows.map (fun p => p.1.map CsvCell.val) ++ if final = [] then [] else [final.map CsvCell.val]

/-! ### Scanning -/

theorem doubled_eq_self {s : Str} (h : quote ∉ s) : doubled s = s := by
  induction s with
  | nil => rfl
  | cons c r ih =>
    rw [doubled, if_neg (fun e => h (by rw [e]; exact List.mem_cons_self)),
      ih (fun e => h (List.mem_cons_of_mem _ e))]

theorem scanQuoted_eq (v rest : Str) (hv : quote ∉ v) (hr : rest.head? ≠ some quote) :
    scanQuoted (v ++ quote :: rest) = (v, quote :: rest) := by
  induction v with
  | nil =>
    match rest, hr with
    | [], _ => simp [scanQuoted]
    | d :: r, hr =>
      have : d ≠ quote := by simpa using hr
      simp [scanQuoted, this]
  | cons c v ih =>
    have hc : c ≠ quote := fun e => hv (by rw [e]; exact List.mem_cons_self)
    have ih := ih (fun e => hv (List.mem_cons_of_mem _ e))
    match v, ih with
    | [], ih => rw [List.nil_append] at ih; simp [scanQuoted, hc, ih]
    | d :: v, ih => rw [List.cons_append] at ih; simp [scanQuoted, hc, ih]

/-- What ends a plain field. -/
def Ends (rest : Str) : Prop := ∀ b, rest.head? = some b → b = comma ∨ b = nl ∨ b = cr

theorem scanPlain_eq (v rest : Str) (hv : ∀ b ∈ v, b ≠ comma ∧ b ≠ nl ∧ b ≠ cr)
    (hr : Ends rest) : scanPlain (v ++ rest) = (v, rest) := by
  induction v with
  | nil =>
    match rest, hr with
    | [], _ => rfl
    | d :: r, hr => rw [List.nil_append, scanPlain, if_pos (hr d rfl)]
  | cons c v ih =>
    have hc := hv c List.mem_cons_self
    rw [List.cons_append, scanPlain, if_neg (by simp [hc]),
      ih (fun b hb => hv b (List.mem_cons_of_mem _ hb))]

/-- The fields the parser gets right: a quoted one has no quote in it, a plain one has no comma or
line break and does not start with a quote. -/
def CsvCell.fine (c : CsvCell) : Prop :=
  (c.quoted = true → quote ∉ c.val) ∧
  (c.quoted = false → (∀ b ∈ c.val, b ≠ comma ∧ b ≠ nl ∧ b ≠ cr) ∧ c.val.head? ≠ some quote)

theorem field_eq (c : CsvCell) (hc : c.fine) (rest : Str) (hr : Ends rest)
    (hne : c.text ++ rest ≠ []) : field (c.text ++ rest) = (c.val, skip comma rest) := by
  have hq : rest.head? ≠ some quote := by
    intro h
    rcases hr _ h with h | h | h <;> exact absurd h (by decide)
  cases hcq : c.quoted with
  | true =>
    have hv := hc.1 hcq
    rw [CsvCell.text, if_pos hcq, doubled_eq_self hv]
    show field (quote :: (c.val ++ [quote] ++ rest)) = _
    rw [field, if_pos rfl, List.append_assoc, List.singleton_append, scanQuoted_eq _ _ hv hq]
    rfl
  | false =>
    have hv := hc.2 hcq
    rw [CsvCell.text, if_neg (by rw [hcq]; decide)] at hne ⊢
    have hs := scanPlain_eq c.val rest hv.1 hr
    have hh : (c.val ++ rest).head? ≠ some quote := by
      match h : c.val with
      | [] => rw [List.nil_append]; exact hq
      | d :: r => have := hv.2; rw [h] at this; simpa using this
    match h : c.val ++ rest with
    | [] => exact absurd h hne
    | d :: r =>
      rw [h] at hh
      rw [field, if_neg (by simpa using hh), ← h, hs]

theorem text_head (c : CsvCell) (hc : c.fine) (b : Byte) (h : c.text.head? = some b) :
    ¬ (b = nl ∨ b = cr) := by
  rw [CsvCell.text] at h
  split at h
  · simp at h; subst h; decide
  · rename_i hq
    have hv := (hc.2 (by simpa using hq)).1 b (by
      match hcv : c.val with
      | [] => rw [hcv] at h; simp at h
      | d :: r => rw [hcv] at h; simp at h; simp [h])
    simp [hv]

/-- The end of a line. -/
def EndsLine (rest : Str) : Prop := ∀ b, rest.head? = some b → b = nl ∨ b = cr

theorem rowLoop_end {rest : Str} (h : EndsLine rest) (n : Nat) (hn : rest ≠ [] → 0 < n) :
    rowLoop n rest = some ([], rest) := by
  match rest, n with
  | [], n => unfold rowLoop; rfl
  | d :: r, 0 => exact absurd (hn (by simp)) (by omega)
  | d :: r, n + 1 => rw [rowLoop, if_pos (h d rfl)]

/-- The rows the parser gets right: fine fields, and the last one leaves some text. -/
def fineRow : List CsvCell → Prop
  | [] => True
  | [c] => c.fine ∧ c.text ≠ []
  | c :: d :: r => c.fine ∧ fineRow (d :: r)

theorem skip_not {c : Byte} {s : Str} (h : s.head? ≠ some c) : skip c s = s := by
  match s, h with
  | [], _ => rfl
  | d :: r, h => rw [skip, if_neg (by simpa using h)]

theorem rowLoop_eq (cs : List CsvCell) : ∀ (rest : Str) (n : Nat), fineRow cs → EndsLine rest →
    (csvLine cs ++ rest).length ≤ n →
    rowLoop n (csvLine cs ++ rest) = some (cs.map CsvCell.val, rest) := by
  induction cs with
  | nil =>
    intro rest n _ hr hn
    refine rowLoop_end hr n (fun h => ?_)
    have := List.length_pos_iff.mpr h
    rw [csvLine, List.nil_append] at hn
    omega
  | cons c cs ih =>
    intro rest n hf hr hn
    cases cs with
    | nil =>
      rw [csvLine] at hn ⊢
      have hne : c.text ++ rest ≠ [] := by simp [hf.2]
      have hE : Ends rest := fun b hb => Or.inr (hr b hb)
      have hfd := field_eq c hf.1 rest hE hne
      have hsk : skip comma rest = rest := skip_not (by
        intro h; rcases hr _ h with h | h <;> exact absurd h (by decide))
      obtain ⟨d, t, ht⟩ : ∃ d t, c.text = d :: t := by
        match h : c.text with
        | [] => exact absurd h hf.2
        | d :: t => exact ⟨d, t, rfl⟩
      rw [List.length_append, ht, List.length_cons] at hn
      rw [ht] at hfd ⊢
      obtain ⟨m, rfl⟩ : ∃ m, n = m + 1 := ⟨n - 1, by omega⟩
      rw [List.cons_append] at hfd ⊢
      rw [rowLoop, if_neg (text_head c hf.1 d (by rw [ht]; rfl)), hfd, hsk,
        rowLoop_end hr m (fun h => by have := List.length_pos_iff.mpr h; omega)]
      rfl
    | cons d cs =>
      rw [csvLine, List.append_assoc, List.cons_append] at hn ⊢
      have hE : Ends (comma :: (csvLine (d :: cs) ++ rest)) := fun b hb => by
        simp at hb; exact Or.inl hb.symm
      have hne : c.text ++ comma :: (csvLine (d :: cs) ++ rest) ≠ [] := by simp
      have hfd := field_eq c hf.1 _ hE hne
      have hsk : skip comma (comma :: (csvLine (d :: cs) ++ rest)) = csvLine (d :: cs) ++ rest := by
        rw [skip, if_pos rfl]
      rw [hsk] at hfd
      have hhead : ∀ b, (c.text ++ comma :: (csvLine (d :: cs) ++ rest)).head? = some b →
          ¬ (b = nl ∨ b = cr) := by
        intro b hb
        match h : c.text with
        | [] => rw [h] at hb; simp at hb; subst hb; decide
        | e :: t => rw [h] at hb; exact text_head c hf.1 b (by rw [h]; simpa using hb)
      rw [List.length_append, List.length_cons] at hn
      obtain ⟨m, rfl⟩ : ∃ m, n = m + 1 := ⟨n - 1, by omega⟩
      have hrec := ih rest m hf.2 hr (by omega)
      match h : c.text ++ comma :: (csvLine (d :: cs) ++ rest) with
      | [] => exact absurd h hne
      | e :: t =>
        rw [h] at hfd hhead
        rw [rowLoop, if_neg (hhead e rfl), hfd, hrec]
        rfl

theorem rowsLoop_eq (rows : List (List CsvCell × Bool)) (final : List CsvCell)
    (hfin : fineRow final) : ∀ n, (∀ p ∈ rows, fineRow p.1) → (csvDoc rows final).length ≤ n →
    rowsLoop n (csvDoc rows final) = some (csvVals rows final) := by
  induction rows with
  | nil =>
    intro n _ hn
    rw [csvDoc] at hn ⊢
    rw [csvVals, List.map_nil, List.nil_append]
    by_cases hf : final = []
    · rw [hf, if_pos rfl, csvLine]
      unfold rowsLoop
      rfl
    · rw [if_neg hf]
      have hl := rowLoop_eq final [] (csvLine final).length hfin (fun b hb => by simp at hb)
        (by simp)
      rw [List.append_nil] at hl
      match h : csvLine final, n with
      | [], n =>
        rw [h] at hl
        unfold rowLoop at hl
        simp at hl
        exact absurd hl hf
      | d :: t, 0 => rw [h] at hn; simp at hn
      | d :: t, n + 1 =>
        rw [h] at hl
        rw [rowsLoop, hl]
        have : skip nl (skip cr []) = [] := rfl
        simp only [this]
        unfold rowsLoop
        rfl
  | cons p rows ih =>
    obtain ⟨cs, e⟩ := p
    intro n hf hn
    rw [csvDoc, List.append_assoc] at hn ⊢
    have hE : EndsLine (lineEnd e ++ csvDoc rows final) := by
      intro b hb
      cases e <;> simp [lineEnd] at hb <;> simp [hb]
    have hl := rowLoop_eq cs (lineEnd e ++ csvDoc rows final) _ (hf _ List.mem_cons_self) hE
      (Nat.le_refl _)
    have hsk : skip nl (skip cr (lineEnd e ++ csvDoc rows final)) = csvDoc rows final := by
      cases e
      · simp only [lineEnd, Bool.false_eq_true, if_false, List.singleton_append]
        rw [skip, if_neg (by decide), skip, if_pos rfl]
      · simp only [lineEnd, if_true, List.cons_append, List.nil_append]
        rw [skip, if_pos rfl, skip, if_pos rfl]
    have hle : (lineEnd e).length ≥ 1 := by cases e <;> simp [lineEnd]
    rw [List.length_append, List.length_append] at hn
    obtain ⟨m, rfl⟩ : ∃ m, n = m + 1 := ⟨n - 1, by omega⟩
    have hrec := ih m (fun q hq => hf q (List.mem_cons_of_mem _ hq)) (by omega)
    match h : csvLine cs ++ (lineEnd e ++ csvDoc rows final) with
    | [] =>
      have := congrArg List.length h
      rw [List.length_append, List.length_append, List.length_nil] at this
      omega
    | d :: t =>
      rw [h] at hl
      rw [rowsLoop, hl]
      simp only [hsk, hrec]
      rfl

/-! ### C90 -/

/-- C90 as claimed: the parser reads RFC 4180 documents. -/
def C90_statement : Prop :=
  ∀ rows final, (∀ p ∈ rows, p.1 ≠ [] ∧ ∀ c ∈ p.1, CsvCell.rfc c) → (∀ c ∈ final, CsvCell.rfc c) →
    Csv.parse (csvDoc rows final) = some (csvVals rows final)

/-- A quote inside a quoted field stays doubled. -/
theorem C90_quote_witness :
    csvDoc [([⟨true, lit "a\"b"⟩], false)] [] = lit "\"a\"\"b\"\n" ∧
    Csv.parse (lit "\"a\"\"b\"\n") = some [[lit "a\"\"b"]] := by decide +kernel

/-- An empty last field is dropped. -/
theorem C90_empty_witness :
    csvDoc [([⟨false, lit "a"⟩, ⟨false, []⟩], false)] [] = lit "a,\n" ∧
    Csv.parse (lit "a,\n") = some [[lit "a"]] := by decide +kernel

theorem C90_fails : ¬ C90_statement := by
  intro h
  have := h [([⟨true, lit "a\"b"⟩], false)] [] (by simp [CsvCell.rfc]) (by simp)
  rw [C90_quote_witness.1, C90_quote_witness.2] at this
  exact absurd this (by decide +kernel)

/-- The parser reads every document, of any size, with quoted and plain fields and both kinds of
line end. Missing for the full claim: quotes inside quoted fields, and a plain empty field at the
end of a record. -/
theorem C90_partial (rows : List (List CsvCell × Bool)) (final : List CsvCell)
    (hrows : ∀ p ∈ rows, fineRow p.1) (hfin : fineRow final) :
    Csv.parse (csvDoc rows final) = some (csvVals rows final) :=
  rowsLoop_eq rows final hfin _ hrows (Nat.le_refl _)

example : Csv.parse (lit "a,\"b,c\"\r\n,d") = some [[lit "a", lit "b,c"], [[], lit "d"]] := by
  decide +kernel

theorem scanQuoted_length : ∀ s : Str, (scanQuoted s).2.length ≤ s.length
  | [] => by simp [scanQuoted]
  | [c] => by by_cases h : c = quote <;> simp [scanQuoted, h]
  | c :: d :: r => by
    have h1 := scanQuoted_length r
    have h2 := scanQuoted_length (d :: r)
    rw [scanQuoted]
    split
    · split <;> simp <;> omega
    · simp at h2 ⊢; omega

theorem scanPlain_length : ∀ s : Str, (scanPlain s).2.length ≤ s.length
  | [] => by simp [scanPlain]
  | c :: r => by
    have h1 := scanPlain_length r
    rw [scanPlain]
    split <;> simp <;> omega

theorem skip_length (c : Byte) (s : Str) : (skip c s).length ≤ s.length := by
  match s with
  | [] => simp [skip]
  | d :: r => rw [skip]; split <;> simp

theorem field_length (c : Byte) (r : Str) (h : ¬ (c = nl ∨ c = cr)) :
    (field (c :: r)).2.length ≤ r.length := by
  rw [field]
  split
  · have h1 := scanQuoted_length r
    have h2 := skip_length comma ((scanQuoted r).2.drop 1)
    have h3 : ((scanQuoted r).2.drop 1).length ≤ (scanQuoted r).2.length := by simp
    show (skip comma ((scanQuoted r).2.drop 1)).length ≤ _
    omega
  · rw [scanPlain]
    split
    · rename_i hc
      have : c = comma := by
        rcases hc with hc | hc | hc
        · exact hc
        · exact absurd (Or.inl hc) h
        · exact absurd (Or.inr hc) h
      show (skip comma (c :: r)).length ≤ _
      rw [skip, if_pos this]
      exact Nat.le_refl _
    · have h1 := scanPlain_length r
      have h2 := skip_length comma (scanPlain r).2
      show (skip comma (scanPlain r).2).length ≤ _
      omega

theorem rowLoop_some (n : Nat) : ∀ s : Str, s.length ≤ n →
    ∃ fs rest, rowLoop n s = some (fs, rest) ∧ rest.length ≤ s.length ∧
      (rest.length = s.length → EndsLine rest) ∧ EndsLine rest := by
  induction n with
  | zero =>
    intro s h
    match s, h with
    | [], _ => exact ⟨[], [], rfl, by simp, fun _ b hb => by simp at hb, fun b hb => by simp at hb⟩
  | succ n ih =>
    intro s h
    match s, h with
    | [], _ =>
      exact ⟨[], [], by unfold rowLoop; rfl, by simp, fun _ b hb => by simp at hb,
        fun b hb => by simp at hb⟩
    | c :: r, h =>
      rw [rowLoop]
      by_cases hc : c = nl ∨ c = cr
      · rw [if_pos hc]
        have hE : EndsLine (c :: r) := fun b hb => by simp at hb; rwa [← hb]
        exact ⟨[], c :: r, rfl, Nat.le_refl _, fun _ => hE, hE⟩
      · rw [if_neg hc]
        have hl := field_length c r hc
        simp at h
        obtain ⟨fs, rest, hr, h1, _, h3⟩ := ih (field (c :: r)).2 (by omega)
        rw [hr]
        exact ⟨(field (c :: r)).1 :: fs, rest, rfl, by simp; omega, fun _ => h3, h3⟩

theorem rowLoop_shorter (n : Nat) (c : Byte) (r : Str) (h : (c :: r).length ≤ n) :
    ∃ fs rest, rowLoop n (c :: r) = some (fs, rest) ∧ (skip nl (skip cr rest)).length ≤ r.length := by
  obtain ⟨m, rfl⟩ : ∃ m, n = m + 1 := ⟨n - 1, by simp at h; omega⟩
  rw [rowLoop]
  by_cases hc : c = nl ∨ c = cr
  · rw [if_pos hc]
    refine ⟨[], c :: r, rfl, ?_⟩
    rcases hc with hc | hc
    · subst hc
      rw [show skip cr (nl :: r) = nl :: r from by rw [skip, if_neg (by decide)], skip, if_pos rfl]
      exact Nat.le_refl _
    · subst hc
      rw [show skip cr (cr :: r) = r from by rw [skip, if_pos rfl]]
      exact skip_length _ _
  · rw [if_neg hc]
    have hl := field_length c r hc
    simp at h
    obtain ⟨fs, rest, hr, h1, _, h3⟩ := rowLoop_some m (field (c :: r)).2 (by omega)
    rw [hr]
    refine ⟨(field (c :: r)).1 :: fs, rest, rfl, ?_⟩
    have := skip_length nl (skip cr rest)
    have := skip_length cr rest
    omega

/-- The parser terminates on every text. -/
theorem C90_terminates (s : Str) : ∃ t, Csv.parse s = some t := by
  have key : ∀ n (s : Str), s.length ≤ n → ∃ t, rowsLoop n s = some t := by
    intro n
    induction n with
    | zero =>
      intro s h
      match s, h with
      | [], _ => exact ⟨[], rfl⟩
    | succ n ih =>
      intro s h
      match s, h with
      | [], _ => exact ⟨[], by unfold rowsLoop; rfl⟩
      | c :: r, h =>
        obtain ⟨fs, rest, hr, hs⟩ := rowLoop_shorter _ c r (Nat.le_refl _)
        simp at h
        obtain ⟨t, ht⟩ := ih (skip nl (skip cr rest)) (by omega)
        rw [rowsLoop, hr]
        simp only [ht]
        exact ⟨_, rfl⟩
  exact key _ s (Nat.le_refl _)

/-! ### C29 -/

/-- C29 as claimed. -/
def C29_statement : Prop :=
  ∀ t : List (List Str), ∃ s, encode t = .ok s ∧ Csv.parse s = some t

/-- A comma in a field splits it; a quote at its start is eaten; an empty last field is lost. -/
theorem C29_witness :
    encode [[lit "a,b"]] = .ok (lit "a,b\n") ∧
    Csv.parse (lit "a,b\n") = some [[lit "a", lit "b"]] ∧
    encode [[lit "a\nb"]] = .ok (lit "a\nb\n") ∧
    Csv.parse (lit "a\nb\n") = some [[lit "a"], [lit "b"]] ∧
    encode [[lit "\"a"]] = .ok (lit "\"a\n") ∧ Csv.parse (lit "\"a\n") = some [[lit "a\n"]] ∧
    encode [[lit "a", []]] = .ok (lit "a,\n") ∧ Csv.parse (lit "a,\n") = some [[lit "a"]] := by
  decide +kernel

theorem C29_fails : ¬ C29_statement := by
  intro h
  obtain ⟨s, h1, h2⟩ := h [[lit "a,b"]]
  rw [C29_witness.1] at h1
  cases h1
  rw [C29_witness.2.1] at h2
  exact absurd h2 (by decide +kernel)

/-- A row that needs no quoting. -/
def PlainRow (row : List Str) : Prop :=
  (∀ f ∈ row, (∀ b ∈ f, b ≠ comma ∧ b ≠ nl ∧ b ≠ cr) ∧ f.head? ≠ some quote) ∧
    row.getLast? ≠ some []

theorem fineRow_plain (row : List Str) (h : PlainRow row) :
    fineRow (row.map fun f => ⟨false, f⟩) := by
  induction row with
  | nil => trivial
  | cons f row ih =>
    have hf : CsvCell.fine ⟨false, f⟩ := ⟨by simp, fun _ => h.1 f List.mem_cons_self⟩
    cases row with
    | nil => exact ⟨hf, by simpa [CsvCell.text] using h.2⟩
    | cons g row =>
      exact ⟨hf, ih ⟨fun x hx => h.1 x (List.mem_cons_of_mem _ hx), by simpa using h.2⟩⟩

theorem csvLine_plain (row : List Str) :
    csvLine (row.map fun f => ⟨false, f⟩) = rowText row := by
  induction row with
  | nil => rfl
  | cons f row ih =>
    cases row with
    | nil => rfl
    | cons g row => rw [rowText, ← ih]; rfl

theorem csvDoc_plain (t : List (List Str)) :
    csvDoc (t.map fun row => (row.map fun f => ⟨false, f⟩, false)) [] = tableText t := by
  induction t with
  | nil => rfl
  | cons row t ih =>
    rw [List.map_cons, csvDoc, ih, csvLine_plain, tableText, lineEnd, List.append_assoc]
    rfl

theorem rowText_length (row : List Str) :
    (rowText row).length = (row.map List.length).sum + (row.length - 1) := by
  induction row with
  | nil => rfl
  | cons f row ih =>
    cases row with
    | nil => simp [rowText]
    | cons g row =>
      rw [rowText, List.length_append, List.length_cons, ih]
      simp
      omega

theorem tableText_length (t : List (List Str)) : (tableText t).length = totalSize t := by
  induction t with
  | nil => rfl
  | cons row t ih =>
    rw [tableText, totalSize, List.length_append, List.length_cons, rowText_length, ih]
    omega

/-- Stringify writes fields separated by commas and rows ended by a line feed, within its buffer,
as long as the text is below 2^31 bytes. -/
theorem C29_text_partial (t : List (List Str)) (h : totalSize t ≤ int32Max) :
    encode t = .ok (tableText t) := by
  rw [encode, if_neg (by omega), put, List.nil_append, tableText_length, if_pos (by simp)]

/-- Tables that need no quoting round-trip. Missing for the full claim: fields with a comma, a line
break or a leading quote, rows whose last field is empty, and texts of 2^31 bytes or more. -/
theorem C29_partial (t : List (List Str)) (h : totalSize t ≤ int32Max)
    (hp : ∀ row ∈ t, PlainRow row) :
    ∃ s, encode t = .ok s ∧ Csv.parse s = some t := by
  refine ⟨_, C29_text_partial t h, ?_⟩
  rw [← csvDoc_plain, C90_partial _ [] (fun p hp' => ?_) trivial]
  · simp [csvVals, Function.comp_def]
  · obtain ⟨row, hrow, rfl⟩ := List.mem_map.mp hp'
    exact fineRow_plain row (hp row hrow)

/-- From 2^31 bytes on the size computation overflows. -/
theorem C29_size_witness (t : List (List Str)) (h : int32Max < totalSize t) : encode t = .ub := by
  rw [encode, if_pos h]

example : PlainRow [lit "a b", [], lit "c"] := by
  unfold PlainRow; decide +kernel
example : PlainRow [] := by unfold PlainRow; decide +kernel

end Verif.Props

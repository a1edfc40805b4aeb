import Verif.Model.Interp
import Verif.Props.Strings
import Verif.Props.Utf8

/-! C99, C100: interpolated strings and the texts of arrays and maps. -/
namespace Verif.Props
open Verif Verif.Str Verif.Interp

/-- The text of an element. -/
def elemSpec : Elem → Str
  | .plain t => t
  | .str s => ch '"' :: s ++ [ch '"']
  | .chr cp => ch '\'' :: utf8 cp.toNat ++ [ch '\'']

/-- The text of an entry. -/
def entrySpec (e : Str × Elem) : Str := ch '"' :: e.1 ++ lit "\": " ++ elemSpec e.2

/-- The text of an array: the elements in braces, separated by ", ". -/
def arraySpec (a : List Elem) : Str := ch '{' :: joined (lit ", ") (a.map elemSpec) ++ [ch '}']

/-- The text of a map. -/
def mapSpec (m : List (Str × Elem)) : Str :=
  if m = [] then lit "{:}" else ch '{' :: joined (lit ", ") (m.map entrySpec) ++ [ch '}']

/-- C100 as claimed: arrays and maps are shown completely (or the program panics). -/
def C100_statement : Prop :=
  (∀ a, arrayText a = .ok (arraySpec a) ∨ (arrayText a).isPanic = true) ∧
  (∀ m, mapText m = .ok (mapSpec m) ∨ (mapText m).isPanic = true)

/-- No NUL in the strings of an element; characters are code points. -/
def NoNul : Elem → Prop
  | .str s => 0 ∉ s
  | .chr cp => 0 ≤ cp ∧ Scalar cp.toNat
  | _ => True

theorem cstr_eq {s : Str} (h : 0 ∉ s) : cstr s = s := by
  rw [cstr]
  induction s with
  | nil => rfl
  | cons x r ih =>
    have hx : x ≠ 0 := fun e => h (e ▸ List.mem_cons_self)
    rw [List.takeWhile_cons, if_pos (by simpa using hx), ih (fun hm => h (List.mem_cons_of_mem _ hm))]

theorem char_utf8 {cp : Int} (h0 : 0 ≤ cp) (h : Scalar cp.toNat) :
    Utf8.charToUtf8 cp = utf8 cp.toNat := by
  have := C34_encode cp.toNat h
  rwa [Int.toNat_of_nonneg h0] at this

theorem cpToUtf8_eq {cp : Int} (h0 : 0 ≤ cp) (h : Scalar cp.toNat) : cpToUtf8 cp = utf8 cp.toNat := by
  rw [cpToUtf8, if_pos (by unfold Scalar at h; omega), char_utf8 h0 h]

theorem cpToUtf8_length (cp : Int) : (cpToUtf8 cp).length ≤ 4 := by
  rw [cpToUtf8, Utf8.charToUtf8]
  split
  · split
    · simp
    · simp only
      split
      · simp
      · split
        · simp
        · simp
  · simp

theorem putElem_ok (out : Str) (e : Elem) (hn : NoNul e) (h : out.length + (elemSpec e).length < bufSize) :
    putElem out e = .ok (out ++ elemSpec e) := by
  have hb : bufSize = 4096 := rfl
  cases e with
  | plain t =>
    simp only [elemSpec] at h
    rw [putElem, snp, if_pos (by omega)]; rfl
  | str s =>
    simp only [elemSpec] at h
    rw [putElem, snp, if_pos (by omega), cstr_eq hn]; rfl
  | chr cp =>
    simp only [elemSpec, List.length_append, List.length_cons, List.length_nil] at h
    rw [putElem, cpToUtf8_eq hn.1 hn.2, if_pos (by omega)]; rfl

theorem putSep_ok (first : Bool) (out : Str) (h : out.length + 2 ≤ bufSize) :
    putSep first out = .ok (out ++ (if first then [] else lit ", ")) := by
  cases first with
  | true => rw [putSep, if_pos rfl, if_pos rfl, List.append_nil]
  | false =>
    rw [putSep, if_neg (by simp), if_neg (by simp), putc, if_pos (by omega), Outcome.bind_ok, putc,
      if_pos (by simp; omega), List.append_assoc]
    rfl

/-- What remains to be written. -/
def tailText (first : Bool) (ts : List Str) : Str :=
  if ts = [] then [] else (if first then [] else lit ", ") ++ joined (lit ", ") ts

theorem tailText_cons (first : Bool) (t : Str) (ts : List Str) :
    tailText first (t :: ts) = (if first then [] else lit ", ") ++ (t ++ tailText false ts) := by
  rw [tailText, if_neg (by simp), tailText]
  cases ts with
  | nil => simp [joined]
  | cons u us => simp [joined]

theorem arrayLoop_ok (a : List Elem) : ∀ (first : Bool) (out : Str), (∀ e ∈ a, NoNul e) →
    out.length + (tailText first (a.map elemSpec)).length ≤ safeLimit → out.length < safeLimit →
    arrayLoop first a out = .ok (out ++ tailText first (a.map elemSpec)) := by
  have hb : bufSize = 4096 := rfl
  have hs : safeLimit = 4000 := rfl
  induction a with
  | nil => intro first out _ _ _; rw [arrayLoop, List.map_nil, tailText, if_pos rfl, List.append_nil]
  | cons e r ih =>
    intro first out hn h hl
    rw [List.map_cons, tailText_cons] at h ⊢
    rw [List.length_append, List.length_append] at h
    rw [arrayLoop, if_pos hl, putSep_ok _ _ (by omega), Outcome.bind_ok,
      putElem_ok _ _ (hn e List.mem_cons_self) (by rw [List.length_append]; omega), Outcome.bind_ok]
    by_cases hr : r = []
    · subst hr
      rw [arrayLoop, List.map_nil, tailText, if_pos rfl]
      simp
    · have hpos : 0 < (tailText false (r.map elemSpec)).length := by
        obtain ⟨x, y, rfl⟩ := List.exists_cons_of_ne_nil hr
        rw [List.map_cons, tailText_cons, if_neg (by simp)]
        simp [lit]
      rw [ih false _ (fun x hx => hn x (List.mem_cons_of_mem _ hx))
        (by simp only [List.length_append]; omega) (by simp only [List.length_append]; omega)]
      simp

theorem mapLoop_ok (a : List (Str × Elem)) : ∀ (first : Bool) (out : Str),
    (∀ e ∈ a, 0 ∉ e.1 ∧ NoNul e.2) →
    out.length + (tailText first (a.map entrySpec)).length ≤ safeLimit → out.length < safeLimit →
    mapLoop first a out = .ok (out ++ tailText first (a.map entrySpec)) := by
  have hb : bufSize = 4096 := rfl
  have hs : safeLimit = 4000 := rfl
  induction a with
  | nil => intro first out _ _ _; rw [mapLoop, List.map_nil, tailText, if_pos rfl, List.append_nil]
  | cons e r ih =>
    intro first out hn h hl
    obtain ⟨k, v⟩ := e
    rw [List.map_cons, tailText_cons] at h ⊢
    rw [List.length_append, List.length_append] at h
    have he : (entrySpec (k, v)).length = (ch '"' :: k ++ lit "\": ").length + (elemSpec v).length := by
      rw [entrySpec, List.length_append]
    have hk := hn (k, v) List.mem_cons_self
    rw [mapLoop, if_pos hl, putSep_ok _ _ (by omega), Outcome.bind_ok, snp,
      if_pos (by rw [List.length_append]; omega), Outcome.bind_ok, cstr_eq hk.1,
      putElem_ok _ _ hk.2 (by simp only [List.length_append] at he ⊢; omega), Outcome.bind_ok]
    have heq : out ++ (if first = true then [] else lit ", ") ++ (ch '"' :: k ++ lit "\": ") ++ elemSpec v
        = out ++ (if first = true then [] else lit ", ") ++ entrySpec (k, v) := by
      simp [entrySpec]
    rw [heq]
    by_cases hr : r = []
    · subst hr
      rw [mapLoop, List.map_nil, tailText, if_pos rfl]
      simp
    · have hpos : 0 < (tailText false (r.map entrySpec)).length := by
        obtain ⟨x, y, rfl⟩ := List.exists_cons_of_ne_nil hr
        rw [List.map_cons, tailText_cons, if_neg (by simp)]
        simp [lit]
      rw [ih false _ (fun x hx => hn x (List.mem_cons_of_mem _ hx))
        (by simp only [List.length_append]; omega) (by simp only [List.length_append]; omega)]
      simp

theorem finish_ok (out : Str) (h : out.length + 2 ≤ bufSize) : finish out = .ok (out ++ [ch '}']) := by
  rw [finish, putc, if_pos (by omega), Outcome.bind_ok, putc, if_pos (by simp; omega), Outcome.bind_ok]

theorem tailText_first (ts : List Str) : tailText true ts = joined (lit ", ") ts := by
  rw [tailText]
  split
  · rename_i h; rw [h]; rfl
  · rfl

/-- Arrays and maps whose text has at most 4001 bytes, with no NUL in their strings, are shown
exactly. Missing for the full claim: longer texts and strings with NUL bytes. -/
theorem C100_partial :
    (∀ a, (∀ e ∈ a, NoNul e) → (arraySpec a).length ≤ 4001 → arrayText a = .ok (arraySpec a)) ∧
    (∀ m : List (Str × Elem), (∀ e ∈ m, 0 ∉ e.1 ∧ NoNul e.2) → (mapSpec m).length ≤ 4001 →
      mapText m = .ok (mapSpec m)) := by
  have hb : bufSize = 4096 := rfl
  have hs : safeLimit = 4000 := rfl
  constructor
  · intro a hn h
    rw [arraySpec, List.length_append, List.length_cons] at h
    simp only [List.length_cons, List.length_nil] at h
    rw [arrayText, arrayLoop_ok a true [ch '{'] hn (by rw [tailText_first]; simp; omega) (by decide),
      Outcome.bind_ok, tailText_first, finish_ok _ (by simp; omega)]
    rfl
  · intro m hn h
    by_cases hm : m = []
    · subst hm; rfl
    · rw [mapSpec, if_neg hm, List.length_append, List.length_cons] at h
      simp only [List.length_cons, List.length_nil] at h
      rw [mapText, mapLoop_ok m true [ch '{'] hn (by rw [tailText_first]; simp; omega) (by decide),
        Outcome.bind_ok, tailText_first, emptyMark, if_neg (by simpa using hm), Outcome.bind_ok,
        finish_ok _ (by simp; omega), mapSpec, if_neg hm]
      rfl

theorem putElem_short (out : Str) (e : Elem) (h : (elemSpec e).length ≤ 93)
    (ho : out.length ≤ bufSize) :
    ∃ t, putElem out e = .ok (out ++ t) ∧ t.length ≤ 93 := by
  cases e with
  | plain t =>
    exact ⟨t, by rw [putElem, snp, if_pos ho], h⟩
  | str s =>
    refine ⟨_, by rw [putElem, snp, if_pos ho], ?_⟩
    have : (cstr s).length ≤ s.length := by
      rw [cstr]; exact (List.takeWhile_prefix _).length_le
    simp only [elemSpec, List.length_append, List.length_cons, List.length_nil] at h ⊢
    omega
  | chr cp =>
    rw [putElem]
    split
    · refine ⟨_, rfl, ?_⟩
      have := cpToUtf8_length cp
      simp only [List.length_append, List.length_cons, List.length_nil]
      omega
    · exact ⟨[], by simp, by simp⟩

theorem arrayLoop_short (a : List Elem) : ∀ (first : Bool) (out : Str),
    (∀ e ∈ a, (elemSpec e).length ≤ 93) → out.length ≤ 4094 →
    ∃ o, arrayLoop first a out = .ok o ∧ o.length ≤ 4094 := by
  have hb : bufSize = 4096 := rfl
  have hs : safeLimit = 4000 := rfl
  induction a with
  | nil => intro first out _ h; exact ⟨out, rfl, h⟩
  | cons e r ih =>
    intro first out hn h
    rw [arrayLoop]
    by_cases hl : out.length < safeLimit
    · rw [if_pos hl, putSep_ok _ _ (by omega), Outcome.bind_ok]
      have h2 : (if first = true then ([] : Str) else lit ", ").length ≤ 2 := by
        cases first <;> decide
      obtain ⟨t, ht, hle⟩ := putElem_short (out ++ if first = true then [] else lit ", ") e
        (hn e List.mem_cons_self) (by rw [List.length_append]; omega)
      rw [ht, Outcome.bind_ok]
      exact ih false _ (fun x hx => hn x (List.mem_cons_of_mem _ hx))
        (by simp only [List.length_append]; omega)
    · rw [if_neg hl]; exact ⟨out, rfl, h⟩

/-- Arrays of any length whose element texts have at most 93 bytes stay inside the buffer. Missing
for the full claim: the text is cut near 4000 bytes. -/
theorem C100_safe_partial (a : List Elem) (h : ∀ e ∈ a, (elemSpec e).length ≤ 93) :
    ∃ t, arrayText a = .ok t := by
  obtain ⟨o, h1, h2⟩ := arrayLoop_short a true [ch '{'] h (by decide)
  have hb : bufSize = 4096 := rfl
  exact ⟨_, by rw [arrayText, h1, Outcome.bind_ok, finish_ok _ (by omega)]⟩

theorem putc_len {out : Str} {c : Byte} {o : Str} (h : putc out c = .ok o) :
    out.length < bufSize ∧ o.length = out.length + 1 := by
  rw [putc] at h
  split at h
  · cases h; exact ⟨by assumption, by simp⟩
  · cases h

theorem finish_len {out o : Str} (h : finish out = .ok o) : o.length < bufSize := by
  rw [finish] at h
  match h1 : putc out (ch '}'), h with
  | .ok o1, h =>
    rw [Outcome.bind_ok] at h
    match h2 : putc o1 0, h with
    | .ok o2, h =>
      rw [Outcome.bind_ok] at h
      cases h
      exact (putc_len h2).1

/-- No text of 4096 bytes or more is ever given: the array is cut or the buffer overrun. -/
theorem C100_cut_witness (a : List Elem) (h : 4096 ≤ (arraySpec a).length) :
    arrayText a ≠ .ok (arraySpec a) := by
  intro he
  have hb : bufSize = 4096 := rfl
  rw [arrayText] at he
  match h1 : arrayLoop true a [ch '{'], he with
  | .ok o, he =>
    rw [Outcome.bind_ok] at he
    have := finish_len he
    omega

/-- A single string of 4093 bytes or more overruns the buffer. -/
theorem C100_overrun_witness (s : Str) (hn : 0 ∉ s) (h : 4092 ≤ s.length) :
    arrayText [.str s] = .ub := by
  have hb : bufSize = 4096 := rfl
  rw [arrayText, arrayLoop, if_pos (by decide), putSep, if_pos rfl, Outcome.bind_ok, putElem, snp,
    if_pos (by decide), Outcome.bind_ok, arrayLoop, Outcome.bind_ok, cstr_eq hn, finish, putc]
  simp only [List.length_append, List.length_cons, List.length_nil]
  by_cases h2 : s.length = 4092
  · rw [if_pos (by omega), Outcome.bind_ok, putc, if_neg (by simp; omega)]; rfl
  · rw [if_neg (by omega)]; rfl

/-- A map entry with a long key writes its value outside the buffer. -/
theorem C100_map_witness (k : Str) (e : Elem) (hn : 0 ∉ k) (h : 4092 ≤ k.length) :
    mapText [(k, e)] = .ub := by
  have hb : bufSize = 4096 := rfl
  have hl : (lit "\": ").length = 3 := by decide
  rw [mapText, mapLoop, if_pos (by decide), putSep, if_pos rfl, Outcome.bind_ok, snp,
    if_pos (by decide), Outcome.bind_ok, cstr_eq hn]
  have hlen : 4096 < ([ch '{'] ++ (ch '"' :: k ++ lit "\": ")).length ∨
      ([ch '{'] ++ (ch '"' :: k ++ lit "\": ")).length = 4096 := by
    simp only [List.length_append, List.length_cons, List.length_nil, hl]; omega
  cases e with
  | plain t =>
    rw [putElem, snp]
    rcases hlen with hlen | hlen
    · rw [if_neg (by omega)]; rfl
    · rw [if_pos (by omega), Outcome.bind_ok, mapLoop, Outcome.bind_ok, emptyMark, if_neg (by simp),
        Outcome.bind_ok, finish, putc, if_neg (by rw [List.length_append]; omega)]; rfl
  | str t =>
    rw [putElem, snp]
    rcases hlen with hlen | hlen
    · rw [if_neg (by omega)]; rfl
    · rw [if_pos (by omega), Outcome.bind_ok, mapLoop, Outcome.bind_ok, emptyMark, if_neg (by simp),
        Outcome.bind_ok, finish, putc, if_neg (by rw [List.length_append]; omega)]; rfl
  | chr cp =>
    rw [putElem, if_neg (by omega), Outcome.bind_ok, mapLoop, Outcome.bind_ok, emptyMark,
      if_neg (by simp), Outcome.bind_ok, finish, putc, if_neg (by omega)]; rfl

theorem C100_fails : ¬ C100_statement := by
  intro h
  obtain ⟨s, hs⟩ : ∃ s : Str, s = List.replicate 5000 (ch 'a') := ⟨_, rfl⟩
  have := h.1 [.str s]
  rw [C100_overrun_witness s (by rw [hs]; intro hm; exact absurd (List.eq_of_mem_replicate hm) (by decide))
    (by rw [hs, List.length_replicate]; omega)] at this
  simp [Outcome.isPanic] at this

example : arrayText [.plain (lit "1"), .str (lit "a"), .chr 98] = .ok (lit "{1, \"a\", 'b'}") := by
  decide +kernel
example : mapText [(lit "k", .plain (lit "1")), (lit "l", .plain (lit "2"))] =
    .ok (lit "{\"k\": 1, \"l\": 2}") := by decide +kernel

/-! ### C99 -/

/-- The text of a part. -/
def partSpec : Part → Str
  | .text t => t
  | .plain t => t
  | .str s => s
  | .chr cp => utf8 cp.toNat
  | .arr a => arraySpec a
  | .map m => mapSpec m

/-- C99 as claimed, for parts that are not arrays or maps (those are C100): the interpolated string
is the concatenation of the texts, or a panic. -/
def C99_statement : Prop :=
  ∀ ps : List Part, (∀ p ∈ ps, match p with | .arr _ | .map _ => False | _ => True) →
    format ps = .ok (ps.flatMap partSpec) ∨ (format ps).isPanic = true

/-- A string with a NUL byte is cut at it; so is the character 0. -/
theorem C99_witness : format [.text (lit "x"), .str [97, 0, 98], .text (lit "y")] = .ok (lit "xay") ∧
    format [.chr 0] = .ok [] := by decide +kernel

theorem C99_fails : ¬ C99_statement := by
  intro h
  have := h [.text (lit "x"), .str [97, 0, 98], .text (lit "y")] (by simp)
  rw [C99_witness.1] at this
  revert this
  decide +kernel

/-- A text longer than INT32_MAX bytes becomes the empty string, without a panic. -/
theorem C99_long_witness (s : Str) (hn : 0 ∉ s) (h : int32Max < s.length) :
    format [.str s] = .ok [] := by
  rw [format, partsText, partText, Outcome.bind_ok, partsText, Outcome.bind_ok, Outcome.bind_ok,
    cstr_eq hn, List.append_nil, if_pos h]

/-- A part is shown exactly. -/
def Exact : Part → Prop
  | .str s => 0 ∉ s
  | .chr cp => cp ≠ 0 ∧ 0 ≤ cp ∧ Scalar cp.toNat
  | .arr a => (∀ e ∈ a, NoNul e) ∧ 0 ∉ arraySpec a ∧ (arraySpec a).length ≤ 4001
  | .map m => (∀ e ∈ m, 0 ∉ e.1 ∧ NoNul e.2) ∧ 0 ∉ mapSpec m ∧ (mapSpec m).length ≤ 4001
  | _ => True

theorem or_ne_zero {a x : Nat} (ha : a = 0x80 ∨ a = 0xC0 ∨ a = 0xE0 ∨ a = 0xF0) :
    BitVec.ofNat 8 (a ||| x) ≠ (0 : Byte) := by
  intro h
  have h7 := congrArg (fun b : Byte => b.getLsbD 7) h
  rcases ha with rfl | rfl | rfl | rfl <;>
  · simp only [BitVec.getLsbD_ofNat, Nat.testBit_or] at h7
    revert h7
    simp [show Nat.testBit 128 7 = true from by decide, show Nat.testBit 192 7 = true from by decide,
      show Nat.testBit 224 7 = true from by decide, show Nat.testBit 240 7 = true from by decide]

theorem charToUtf8_nonul {cp : Int} (h : cp ≠ 0) (h0 : 0 ≤ cp) : 0 ∉ Utf8.charToUtf8 cp := by
  rw [Utf8.charToUtf8]
  split
  · rename_i h1
    intro hm
    simp only [List.mem_singleton] at hm
    have := congrArg BitVec.toNat hm
    rw [BitVec.toNat_ofInt] at this
    simp at this
    omega
  · have k : ∀ a x : Nat, a = 0x80 ∨ a = 0xC0 ∨ a = 0xE0 ∨ a = 0xF0 →
        (0 : Byte) ≠ BitVec.ofNat 8 (a ||| x) := fun a x ha e => or_ne_zero ha e.symm
    simp only
    split
    · simp only [List.mem_cons, List.not_mem_nil, or_false, not_or]
      exact ⟨k _ _ (by simp), k _ _ (by simp)⟩
    · split
      · simp only [List.mem_cons, List.not_mem_nil, or_false, not_or]
        exact ⟨k _ _ (by simp), k _ _ (by simp), k _ _ (by simp)⟩
      · split
        · simp only [List.mem_cons, List.not_mem_nil, or_false, not_or]
          exact ⟨k _ _ (by simp), k _ _ (by simp), k _ _ (by simp), k _ _ (by simp)⟩
        · decide

theorem partText_ok (p : Part) (h : Exact p) : partText p = .ok (partSpec p) := by
  cases p with
  | text t => rfl
  | plain t => rfl
  | str s => rw [partText, cstr_eq h]; rfl
  | chr cp => rw [partText, cstr_eq (charToUtf8_nonul h.1 h.2.1), char_utf8 h.2.1 h.2.2]; rfl
  | arr a => rw [partText, C100_partial.1 a h.1 h.2.2, Outcome.bind_ok, cstr_eq h.2.1]; rfl
  | map m => rw [partText, C100_partial.2 m h.1 h.2.2, Outcome.bind_ok, cstr_eq h.2.1]; rfl

/-- Interpolated strings that fit, with no NUL bytes in their strings and with short arrays and
maps, are the concatenation of the texts. Missing for the full claim: NUL bytes, characters
that are not code points, longer results, and what C100 leaves open. -/
theorem C99_partial (ps : List Part) (h : ∀ p ∈ ps, Exact p)
    (hl : (ps.flatMap partSpec).length ≤ int32Max) : format ps = .ok (ps.flatMap partSpec) := by
  have key : ∀ ps : List Part, (∀ p ∈ ps, Exact p) → partsText ps = .ok (ps.flatMap partSpec) := by
    intro ps
    induction ps with
    | nil => intro _; rfl
    | cons p r ih =>
      intro h
      rw [partsText, partText_ok p (h p List.mem_cons_self), Outcome.bind_ok,
        ih (fun q hq => h q (List.mem_cons_of_mem _ hq)), Outcome.bind_ok, List.flatMap_cons]
  rw [format, key ps h, Outcome.bind_ok, if_neg (by omega)]

example : format [.text (lit "n="), .plain (lit "5"), .arr [.plain (lit "1")]] =
    .ok (lit "n=5{1}") := by decide +kernel

end Verif.Props

import Verif.Model.Printf
import Verif.Props.LitEmit
import Verif.Props.Utf8

/-!
# C156, C157, C158, C159, C160: formatted output
-/

namespace Verif.Props
open Verif Verif.Str Verif.Printf

/-! ## C formats (C11 7.21.6.1) -/

/-- Length modifiers. -/
inductive Len where
  | none | h | hh | l | ll | L | jzt
  deriving DecidableEq

/-- What a format consists of: bytes printed as they are, `%%`, and conversions with their flags, width and precision. -/
inductive FItem where
  | text (c : Byte)
  | percent
  | conv (spec : Str) (len : Len) (c : Byte)
  deriving DecidableEq

/-- Where in a conversion specification the reader is. -/
inductive Stage where
  | flags | width | prec | len (l : Len)
  deriving DecidableEq

/-- `d i o u x X f F e E g G a A c s p n`. -/
def convs : List Byte := [100, 105, 111, 117, 120, 88, 102, 70, 101, 69, 103, 71, 97, 65, 99, 115, 112, 110]

/-- What comes next in a conversion specification, if `c` does not end it. -/
def stage (k : Stage) (c : Byte) : Option (Stage × Bool) :=
  match k with
  | .flags =>
    if c ∈ ([45, 43, 32, 48, 35] : List Byte) then some (.flags, true)
    else if isDigit c then some (.width, true)
    else if c = 46 then some (.prec, true)
    else lenStart c
  | .width =>
    if isDigit c then some (.width, true)
    else if c = 46 then some (.prec, true)
    else lenStart c
  | .prec => if isDigit c then some (.prec, true) else lenStart c
  | .len .h => if c = 104 then some (.len .hh, false) else none
  | .len .l => if c = 108 then some (.len .ll, false) else none
  | .len _ => none
where
  lenStart (c : Byte) : Option (Stage × Bool) :=
    if c = 104 then some (.len .h, false)
    else if c = 108 then some (.len .l, false)
    else if c = 76 then some (.len .L, false)
    else if c ∈ ([106, 122, 116] : List Byte) then some (.len .jzt, false)
    else none

def Stage.toLen : Stage → Len
  | .len l => l
  | _ => .none

/-- Reading a format: nothing if it is not one. Inside a specification the state has what was read of flags, width and precision. -/
def items : Option (Str × Stage) → Str → Option (List FItem)
  | none, [] => some []
  | none, c :: r => if c = 37 then items (some ([], .flags)) r else (items none r).map (FItem.text c :: ·)
  | some _, [] => none
  | some (a, k), c :: r =>
    if a = [] ∧ k = .flags ∧ c = 37 then (items none r).map (FItem.percent :: ·)
    else match stage k c with
      | some (k', true) => items (some (a ++ [c], k')) r
      | some (k', false) => items (some (a, k')) r
      | none => if c ∈ convs then (items none r).map (FItem.conv a k.toLen c :: ·) else none

/-- The items of a C string: it ends at the first 0. -/
def cItems (f : Str) : Option (List FItem) := items none (f.takeWhile (· != 0))

/-- An item without its length modifier. -/
def FItem.bare : FItem → FItem
  | .conv a _ c => .conv a .none c
  | i => i

/-- The conversions of a format. -/
def convsOf (is : List FItem) : List (Len × Byte) :=
  is.filterMap fun | .conv _ l c => some (l, c) | _ => none

/-- The type of the argument of a conversion, where there is one (7.21.6.1p7, p8). -/
def wants (l : Len) (c : Byte) : Option CTy :=
  if c ∈ ([100, 105] : List Byte) then match l with
    | .none | .h | .hh => some .int
    | .l | .ll => some .int64
    | _ => none
  else if c ∈ ([117, 120, 88, 111] : List Byte) then match l with
    | .none | .h | .hh => some .uint
    | .l | .ll => some .uint64
    | _ => none
  else if c ∈ ([102, 70, 101, 69, 103, 71, 97, 65] : List Byte) then match l with
    | .none | .l => some .double
    | .L => some .longDouble
    | _ => none
  else if c = 99 then match l with
    | .none => some .int
    | .l => some .wint
    | _ => none
  else if c = 115 then match l with
    | .none => some .charPtr
    | .l => some .wcharPtr
    | _ => none
  else match l with
    | .none => some .ptr
    | _ => none

/-- The argument is of the type wanted; an `int` that is not negative will do for an `unsigned int` (7.16.1.1p2). -/
def fits (t : CTy) (want : Option CTy) : Prop :=
  match want with
  | none => False
  | some w => t = w ∨ (t = .small ∧ (w = .int ∨ w = .uint))

instance (t : CTy) (w : Option CTy) : Decidable (fits t w) := by unfold fits; cases w <;> infer_instance

/-- Each conversion has an argument of its type, and there is no other argument. -/
inductive GoodCall : List (Len × Byte) → List CTy → Prop where
  | nil : GoodCall [] []
  | cons {l : Len} {c : Byte} {t : CTy} {cs : List (Len × Byte)} {ts : List CTy} : fits t (wants l c) → GoodCall cs ts →
      GoodCall ((l, c) :: cs) (t :: ts)

/-- C156: the format string of an accepted call says in C what it says in the program: it is a format, and but for the length modifiers
it has the items of the value of the literal, followed by a line feed in the variants that end a line. -/
def C156_statement : Prop :=
  ∀ (raw : Bool) (s v : Str) (args : List ATy) (nl : Bool), LitDenotes raw s v → accepts s args = true →
    ∃ f is js, cDec .norm (emitFormat s args nl) = some f ∧ items none v = some is ∧ cItems f = some js ∧
      js.map FItem.bare = is.map FItem.bare ++ (if nl then [.text 10] else [])

/-- C157: each conversion of an accepted call has an argument of its type, and there is no other argument. -/
def C157_statement : Prop :=
  ∀ (raw : Bool) (s v : Str) (args : List ATy) (nl : Bool) (f : Str) (js : List FItem), LitDenotes raw s v → accepts s args = true →
    cDec .norm (emitFormat s args nl) = some f → cItems f = some js → GoodCall (convsOf js) (args.map ATy.c)

/-! ## Refutations -/

instance (p : Piece) : Decidable p.Ok := by cases p <;> unfold Piece.Ok <;> infer_instance

theorem den_plain {s : Str} (h : ∀ c ∈ s, c ∉ ([0, 10, 34, 92] : List Byte)) (h36 : 36 ∉ s) : LitDenotes false s s := by
  have h1 : srcs (s.map Piece.plain) = s := by
    induction s with
    | nil => rfl
    | cons c s ih =>
      show c :: srcs (s.map Piece.plain) = _
      rw [ih (fun c hc => h c (List.mem_cons_of_mem _ hc)) (fun hc => h36 (List.mem_cons_of_mem _ hc))]
  have h2 : (s.map Piece.plain).map Piece.value = s := by
    rw [List.map_map]; exact (List.map_congr_left (g := id) fun _ _ => rfl).trans (List.map_id _)
  have h3 := LitDenotes.str (ps := s.map Piece.plain) (by
    intro p hp
    obtain ⟨c, hc, rfl⟩ := List.mem_map.mp hp
    exact h c hc) (by
    intro hi
    have : Piece.plain 36 ∈ s.map Piece.plain := hi.subset (by simp)
    obtain ⟨c, hc, e⟩ := List.mem_map.mp this
    cases e
    exact h36 hc)
  rw [h1, h2] at h3
  exact h3

/-- `\x25` is a percent sign for C, but not for the check: `printf("\x25n")` is accepted without arguments and is `printf("%n")`. -/
theorem C156_witness : LitDenotes false (lit "\\x25n") (lit "%n") ∧ accepts (lit "\\x25n") [] = true ∧
    cDec .norm (emitFormat (lit "\\x25n") [] false) = some (lit "%n") ∧ items none (lit "%n") = some [.conv [] .none 110] := by
  refine ⟨LitDenotes.str (ps := [.hex 50 53, .plain 110]) ?_ ?_, ?_, ?_, ?_⟩ <;> decide +kernel

/-- `printf("100\x25")` is accepted, but `100%` is no format. -/
theorem C156_dangling_witness : LitDenotes false (lit "100\\x25") (lit "100%") ∧ accepts (lit "100\\x25") [] = true ∧
    cDec .norm (emitFormat (lit "100\\x25") [] false) = some (lit "100%") ∧ cItems (lit "100%") = none := by
  refine ⟨LitDenotes.str (ps := [.plain 49, .plain 48, .plain 48, .hex 50 53]) ?_ ?_, ?_, ?_, ?_⟩ <;> decide +kernel

/-- A hexadecimal escape followed by a letter that is a digit is not kept apart as in other literals. -/
theorem C156_hex_witness : LitDenotes false (lit "\\x41B") (lit "AB") ∧ accepts (lit "\\x41B") [] = true ∧
    cDec .norm (emitFormat (lit "\\x41B") [] false) = none := by
  refine ⟨LitDenotes.str (ps := [.hex 52 49, .plain 66]) ?_ ?_, ?_, ?_⟩ <;> decide +kernel

/-- A raw string is emitted as it is: the quotes end the C literal, and a backslash and `n` become a line feed. -/
theorem C156_raw_witness : LitDenotes true (lit "say \"hi\"") (lit "say \"hi\"") ∧ accepts (lit "say \"hi\"") [] = true ∧
    cDec .norm (emitFormat (lit "say \"hi\"") [] false) = none ∧
    LitDenotes true (lit "\\n") (lit "\\n") ∧ cDec .norm (emitFormat (lit "\\n") [] false) = some [10] := by
  refine ⟨.raw ?_, ?_, ?_, .raw ?_, ?_⟩ <;> decide +kernel

theorem C156_fails : ¬ C156_statement := by
  intro h
  obtain ⟨f, _, _, hf, _⟩ := h false _ _ [] false C156_hex_witness.1 C156_hex_witness.2.1
  rw [C156_hex_witness.2.2] at hf
  cases hf

/-- `%x` with an `int`: 64 bits are passed where C takes 32. -/
theorem C157_witness : accepts (lit "%x") [.int] = true ∧ cDec .norm (emitFormat (lit "%x") [.int] false) = some (lit "%x") ∧
    cItems (lit "%x") = some [.conv [] .none 120] ∧ ¬ GoodCall [(.none, 120)] [ATy.int.c] := by
  refine ⟨by decide +kernel, by decide +kernel, by decide +kernel, fun h => ?_⟩
  cases h with | cons h _ => revert h; decide

/-- `%d` with an `i32`: 32 bits are passed where C takes 64. -/
theorem C157_i32_witness : accepts (lit "%d") [.i32] = true ∧ cDec .norm (emitFormat (lit "%d") [.i32] false) = some (lit "%lld") ∧
    cItems (lit "%lld") = some [.conv [] .ll 100] ∧ ¬ GoodCall [(.ll, 100)] [ATy.i32.c] := by
  refine ⟨by decide +kernel, by decide +kernel, by decide +kernel, fun h => ?_⟩
  cases h with | cons h _ => revert h; decide

/-- `%c` with an `int`, `%Lf` with a `float`, `%ls` with a `string` and `%d` with an `i128` are accepted. -/
theorem C157_more_witness :
    (accepts (lit "%c") [.int] = true ∧ ¬ fits ATy.int.c (wants .none 99)) ∧
    (accepts (lit "%Lf") [.float] = true ∧ ¬ fits ATy.float.c (wants .L 102)) ∧
    (accepts (lit "%ls") [.string] = true ∧ ¬ fits ATy.string.c (wants .l 115)) ∧
    (accepts (lit "%d") [.i128] = true ∧ ¬ fits ATy.i128.c (wants .ll 100)) := by decide +kernel

/-- `%b` takes an argument of any type, and is no conversion of C11. -/
theorem C157_b_witness : accepts (lit "%b") [.bool] = true ∧ accepts (lit "%b") [.string] = true ∧
    cDec .norm (emitFormat (lit "%b") [.bool] false) = some (lit "%b") ∧ cItems (lit "%b") = none := by decide +kernel

theorem C157_fails : ¬ C157_statement := by
  intro h
  obtain ⟨h1, h2, h3, h4⟩ := C157_witness
  exact h4 (h false (lit "%x") (lit "%x") [.int] false _ _ (den_plain (by decide +kernel) (by decide +kernel)) h1 h2 h3)

/-! ## What holds -/

/-- The pairs of a length modifier, a conversion and a type of argument that are sound. -/
def sound (l : Len) (c : Byte) (a : ATy) : Bool :=
  if c ∈ ([100, 105] : List Byte) then match l with
    | .none => a ∈ [ATy.int, .i64, .char, .byte]
    | .h | .hh => a ∈ [ATy.i8, .i16, .i32, .char, .byte]
    | .l | .ll => a ∈ [ATy.int, .i64]
    | _ => false
  else if c = 117 then match l with
    | .none => a ∈ [ATy.uint, .u64, .byte]
    | .h | .hh => a ∈ [ATy.u8, .u16, .u32, .byte]
    | .l | .ll => a ∈ [ATy.uint, .u64]
    | _ => false
  else if c ∈ ([120, 88, 111] : List Byte) then match l with
    | .none | .h | .hh => a ∈ [ATy.u8, .u16, .u32, .byte]
    | .l | .ll => a ∈ [ATy.uint, .u64]
    | _ => false
  else if c ∈ ([102, 103, 101, 71, 69] : List Byte) then match l with
    | .none | .l => a ∈ [ATy.f32, .f64, .float]
    | _ => false
  else if c = 115 then l = .none ∧ a = .string
  else if c = 99 then l = .none ∧ a = .char
  else false

/-- A piece of a literal that is no hexadecimal escape, `\\0` or `\\$`. -/
def Simple (p : Piece) : Prop := p.Ok ∧ ∀ c, (p = .esc c → c ≠ 48 ∧ c ≠ 36) ∧ ∀ b, p ≠ .hex c b

namespace Pf

def lenText : Len → Str
  | .none => []
  | .h => [104]
  | .hh => [104, 104]
  | .l => [108]
  | .ll => [108, 108]
  | .L => [76]
  | .jzt => [106]

def hdrByte (c : Byte) : Bool := isFlag c || isDigit c || c == 46

theorem isFlag_mem {c : Byte} : isFlag c = true ↔ c ∈ ([45, 43, 32, 48, 35] : List Byte) := by
  unfold isFlag
  simp only [Bool.or_eq_true, beq_iff_eq, List.mem_cons, List.not_mem_nil, or_false]
  simp only [or_assoc]

theorem items_next {a : Str} {k k' : Stage} {c : Byte} (hc : c ≠ 37) (h : stage k c = some (k', true)) (t : Str) :
    items (some (a, k)) (c :: t) = items (some (a ++ [c], k')) t := by
  rw [items, if_neg (fun h => hc h.2.2), h]

theorem items_skip {a : Str} {k k' : Stage} {c : Byte} (hc : c ≠ 37) (h : stage k c = some (k', false)) (t : Str) :
    items (some (a, k)) (c :: t) = items (some (a, k')) t := by
  rw [items, if_neg (fun h => hc h.2.2), h]

theorem items_conv {a : Str} {k : Stage} {c : Byte} (hc : c ≠ 37) (h : stage k c = none) (hm : c ∈ convs) (t : Str) :
    items (some (a, k)) (c :: t) = (items none t).map (FItem.conv a k.toLen c :: ·) := by
  rw [items, if_neg (fun h => hc h.2.2), h]; exact if_pos hm

theorem digit_ne {c : Byte} (h : isDigit c = true) : c ≠ 37 := by rintro rfl; revert h; decide

theorem items_flags : ∀ (f a t : Str), (∀ c ∈ f, isFlag c = true) →
    items (some (a, .flags)) (f ++ t) = items (some (a ++ f, .flags)) t
  | [], a, t, _ => by rw [List.append_nil]; rfl
  | c :: f, a, t, h => by
    have hc := h c (List.mem_cons_self ..)
    have hm := isFlag_mem.mp hc
    have h37 : c ≠ 37 := by rintro rfl; revert hc; decide
    rw [List.cons_append, items_next h37 (k' := .flags) (by unfold stage; exact if_pos hm),
      items_flags f _ t (fun c hc => h c (List.mem_cons_of_mem _ hc)), List.append_assoc]; rfl

theorem items_width : ∀ (f a t : Str), (∀ c ∈ f, isDigit c = true) →
    items (some (a, .width)) (f ++ t) = items (some (a ++ f, .width)) t
  | [], a, t, _ => by rw [List.append_nil]; rfl
  | c :: f, a, t, h => by
    have hc := h c (List.mem_cons_self ..)
    rw [List.cons_append, items_next (digit_ne hc) (k' := .width) (by unfold stage; exact if_pos hc),
      items_width f _ t (fun c hc => h c (List.mem_cons_of_mem _ hc)), List.append_assoc]; rfl

theorem items_prec : ∀ (f a t : Str), (∀ c ∈ f, isDigit c = true) →
    items (some (a, .prec)) (f ++ t) = items (some (a ++ f, .prec)) t
  | [], a, t, _ => by rw [List.append_nil]; rfl
  | c :: f, a, t, h => by
    have hc := h c (List.mem_cons_self ..)
    rw [List.cons_append, items_next (digit_ne hc) (k' := .prec) (by unfold stage; exact if_pos hc),
      items_prec f _ t (fun c hc => h c (List.mem_cons_of_mem _ hc)), List.append_assoc]; rfl

theorem mem_takeWhile {p : Byte → Bool} : ∀ {s : Str} {c : Byte}, c ∈ s.takeWhile p → p c = true
  | [], c, h => by cases h
  | a :: s, c, h => by
    by_cases ha : p a = true
    · rw [List.takeWhile_cons_of_pos ha] at h
      rcases List.mem_cons.mp h with rfl | h
      · exact ha
      · exact mem_takeWhile h
    · rw [List.takeWhile_cons_of_neg ha] at h; cases h

/-- The shape of what `header` finds. -/
inductive Shape : Str → Str → Prop where
  | nodot {f w r : Str} : (∀ c ∈ f, isFlag c = true) → (∀ c ∈ w, isDigit c = true) → (∀ c, w.head? = some c → isFlag c = false) →
      Shape (f ++ w) r
  | dot {f w d r : Str} : (∀ c ∈ f, isFlag c = true) → (∀ c ∈ w, isDigit c = true) → (∀ c, w.head? = some c → isFlag c = false) →
      (∀ c ∈ d, isDigit c = true) → Shape (f ++ w ++ 46 :: d) r

theorem head_drop {p : Byte → Bool} : ∀ {s : Str} {c : Byte}, (s.dropWhile p).head? = some c → p c = false
  | [], c, h => by cases h
  | a :: s, c, h => by
    by_cases ha : p a = true
    · rw [List.dropWhile_cons_of_pos ha] at h; exact head_drop h
    · rw [List.dropWhile_cons_of_neg ha] at h
      cases h; simpa using ha

theorem header_spec (p : Str) : p = (header p).1 ++ (header p).2 ∧ Shape (header p).1 (header p).2 := by
  have h1 := List.takeWhile_append_dropWhile (p := isFlag) (l := p)
  have h2 := List.takeWhile_append_dropWhile (p := isDigit) (l := p.dropWhile isFlag)
  have hw : ∀ c, ((p.dropWhile isFlag).takeWhile isDigit).head? = some c → isFlag c = false := by
    intro c hc
    cases hd : p.dropWhile isFlag with
    | nil => rw [hd] at hc; cases hc
    | cons a s =>
      have ha : isFlag a = false := head_drop (s := p) (by rw [hd]; rfl)
      rw [hd] at hc
      by_cases hda : isDigit a = true
      · rw [List.takeWhile_cons_of_pos hda] at hc; cases hc; exact ha
      · rw [List.takeWhile_cons_of_neg hda] at hc; cases hc
  unfold header
  dsimp only
  split
  · rename_i q hq
    have h3 := List.takeWhile_append_dropWhile (p := isDigit) (l := q)
    refine ⟨?_, .dot (fun _ => mem_takeWhile) (fun _ => mem_takeWhile) hw (fun _ => mem_takeWhile)⟩
    simp only [List.append_assoc, List.cons_append, h3]
    have hq : List.dropWhile isDigit (List.dropWhile isFlag p) = (46 : Byte) :: q := hq
    rw [← hq, h2, h1]
  · refine ⟨?_, .nodot (fun _ => mem_takeWhile) (fun _ => mem_takeWhile) hw⟩
    rw [List.append_assoc, h2, h1]

theorem flags_width {f w t : Str} (hf : ∀ c ∈ f, isFlag c = true) (hw : ∀ c ∈ w, isDigit c = true)
    (hh : ∀ c, w.head? = some c → isFlag c = false) :
    ∃ k, (k = .flags ∨ k = .width) ∧ items (some ([], .flags)) (f ++ w ++ t) = items (some (f ++ w, k)) t := by
  rw [List.append_assoc, items_flags f [] _ hf]
  cases w with
  | nil => exact ⟨.flags, Or.inl rfl, by rw [List.append_nil]; rfl⟩
  | cons d w =>
    have hd := hw d (List.mem_cons_self ..)
    have hfl := hh d rfl
    have hnf : d ∉ ([45, 43, 32, 48, 35] : List Byte) := fun hm => by rw [isFlag_mem.mpr hm] at hfl; cases hfl
    refine ⟨.width, Or.inr rfl, ?_⟩
    rw [List.cons_append, items_next (digit_ne hd) (k' := .width) (by unfold stage; exact (if_neg hnf).trans (if_pos hd)),
      items_width w _ t (fun c hc => hw c (List.mem_cons_of_mem _ hc))]
    simp

theorem shape_items {h r : Str} (hs : Shape h r) (t : Str) :
    ∃ k, (k = .flags ∨ k = .width ∨ k = .prec) ∧ items (some ([], .flags)) (h ++ t) = items (some (h, k)) t := by
  cases hs with
  | nodot hf hw hh =>
    obtain ⟨k, hk, e⟩ := flags_width (t := t) hf hw hh
    exact ⟨k, by rcases hk with h | h <;> simp [h], e⟩
  | dot hf hw hh hd =>
    rename_i f w d
    obtain ⟨k, hk, e⟩ := flags_width (t := 46 :: (d ++ t)) hf hw hh
    refine ⟨.prec, Or.inr (Or.inr rfl), ?_⟩
    have hst : stage k 46 = some (.prec, true) := by rcases hk with rfl | rfl <;> decide
    rw [show f ++ w ++ 46 :: d ++ t = f ++ w ++ 46 :: (d ++ t) by simp, e, items_next (by decide) hst, items_prec d _ t hd]
    simp

theorem items_end {h : Str} {k : Stage} (hk : k = .flags ∨ k = .width ∨ k = .prec) {L : Len} (hL : L ≠ .jzt) {c : Byte} (t : Str) :
    (c ∈ convs → items (some (h, k)) (lenText L ++ c :: t) = (items none t).map (FItem.conv h L c :: ·)) ∧
    (c = 98 → items (some (h, k)) (lenText L ++ c :: t) = none) := by
  have hcv : ∀ c ∈ convs, c ≠ 37 ∧ stage .flags c = none ∧ stage .width c = none ∧ stage .prec c = none ∧ stage (.len .h) c = none ∧
      stage (.len .hh) c = none ∧ stage (.len .l) c = none ∧ stage (.len .ll) c = none ∧ stage (.len .L) c = none := by decide +kernel
  have h104 : stage k 104 = some (.len .h, false) := by rcases hk with rfl | rfl | rfl <;> decide
  have h108 : stage k 108 = some (.len .l, false) := by rcases hk with rfl | rfl | rfl <;> decide
  have h76 : stage k 76 = some (.len .L, false) := by rcases hk with rfl | rfl | rfl <;> decide
  constructor
  · intro hm
    obtain ⟨h37, q1, q2, q3, q4, q5, q6, q7, q8⟩ := hcv c hm
    have hk' : stage k c = none := by rcases hk with rfl | rfl | rfl <;> assumption
    have hkl : k.toLen = .none := by rcases hk with rfl | rfl | rfl <;> rfl
    cases L with
    | none => show items (some (h, k)) (c :: t) = _; rw [items_conv h37 hk' hm, hkl]
    | h => show items (some (h, k)) (104 :: c :: t) = _; rw [items_skip (by decide) h104, items_conv h37 q4 hm]; rfl
    | hh =>
      show items (some (h, k)) (104 :: 104 :: c :: t) = _
      rw [items_skip (by decide) h104, items_skip (by decide) (k' := .len .hh) (by decide), items_conv h37 q5 hm]; rfl
    | l => show items (some (h, k)) (108 :: c :: t) = _; rw [items_skip (by decide) h108, items_conv h37 q6 hm]; rfl
    | ll =>
      show items (some (h, k)) (108 :: 108 :: c :: t) = _
      rw [items_skip (by decide) h108, items_skip (by decide) (k' := .len .ll) (by decide), items_conv h37 q7 hm]; rfl
    | L => show items (some (h, k)) (76 :: c :: t) = _; rw [items_skip (by decide) h76, items_conv h37 q8 hm]; rfl
    | jzt => exact absurd rfl hL
  · rintro rfl
    have fin : ∀ k, stage k 98 = none → items (some (h, k)) (98 :: t) = none := by
      intro k hk
      rw [items, if_neg (by rintro ⟨_, _, h⟩; revert h; decide), hk]; exact if_neg (by decide)
    have hk' : stage k 98 = none := by rcases hk with rfl | rfl | rfl <;> decide
    cases L with
    | none => exact fin _ hk'
    | h => show items (some (h, k)) (104 :: 98 :: t) = _; rw [items_skip (by decide) h104]; exact fin _ (by decide)
    | hh =>
      show items (some (h, k)) (104 :: 104 :: 98 :: t) = _
      rw [items_skip (by decide) h104, items_skip (by decide) (k' := .len .hh) (by decide)]; exact fin _ (by decide)
    | l => show items (some (h, k)) (108 :: 98 :: t) = _; rw [items_skip (by decide) h108]; exact fin _ (by decide)
    | ll =>
      show items (some (h, k)) (108 :: 108 :: 98 :: t) = _
      rw [items_skip (by decide) h108, items_skip (by decide) (k' := .len .ll) (by decide)]; exact fin _ (by decide)
    | L => show items (some (h, k)) (76 :: 98 :: t) = _; rw [items_skip (by decide) h76]; exact fin _ (by decide)
    | jzt => exact absurd rfl hL

/-- Check and emitter agree on the length modifier. -/
theorem len_agree (p : Str) : ∃ L : Len, L ≠ .jzt ∧ emitLen p = (lenText L, skipLen p) ∧ p = lenText L ++ skipLen p := by
  unfold emitLen
  split
  · exact ⟨.hh, by decide, rfl, rfl⟩
  · rename_i q h; refine ⟨.h, by decide, ?_, ?_⟩ <;> (unfold skipLen; split <;> simp_all [lenText])
  · exact ⟨.ll, by decide, rfl, rfl⟩
  · rename_i q h; refine ⟨.l, by decide, ?_, ?_⟩ <;> (unfold skipLen; split <;> simp_all [lenText])
  · exact ⟨.L, by decide, rfl, rfl⟩
  · rename_i h1 h2 h3 h4 h5; refine ⟨.none, by decide, ?_, ?_⟩ <;> (unfold skipLen; split <;> simp_all [lenText])

theorem shape_bytes {h r : Str} (hs : Shape h r) : ∀ c ∈ h, c ∉ ([0, 10, 34, 92] : List Byte) := by
  have hf : ∀ c, isFlag c = true → c ∉ ([0, 10, 34, 92] : List Byte) := by
    intro c hc hm; simp only [List.mem_cons, List.not_mem_nil, or_false] at hm
    rcases hm with rfl | rfl | rfl | rfl <;> revert hc <;> decide
  have hd : ∀ c, isDigit c = true → c ∉ ([0, 10, 34, 92] : List Byte) := by
    intro c hc hm; simp only [List.mem_cons, List.not_mem_nil, or_false] at hm
    rcases hm with rfl | rfl | rfl | rfl <;> revert hc <;> decide
  cases hs with
  | nodot h1 h2 _ =>
    intro c hc
    rcases List.mem_append.mp hc with hc | hc
    · exact hf c (h1 c hc)
    · exact hd c (h2 c hc)
  | dot h1 h2 _ h3 =>
    intro c hc
    rcases List.mem_append.mp hc with hc | hc
    · rcases List.mem_append.mp hc with hc | hc
      · exact hf c (h1 c hc)
      · exact hd c (h2 c hc)
    · rcases List.mem_cons.mp hc with rfl | hc
      · decide
      · exact hd c (h3 c hc)

theorem lenText_bytes (L : Len) : ∀ c ∈ lenText L, c ∉ ([0, 10, 34, 92] : List Byte) := by cases L <;> decide

theorem known_bytes {c : Byte} (h : known c = true) : c ∉ ([0, 10, 34, 92] : List Byte) ∧ (c ∈ convs ∨ c = 98) := by
  unfold known at h
  rw [List.contains_iff_mem] at h
  have : ∀ c ∈ ([100, 105, 117, 120, 88, 111, 102, 103, 101, 71, 69, 115, 99, 98] : List Byte),
    c ∉ ([0, 10, 34, 92] : List Byte) ∧ (c ∈ convs ∨ c = 98) := by decide +kernel
  exact this c h

/-- A prefix without backslashes is made of plain pieces. -/
theorem srcs_prefix : ∀ {u t : Str} {ps : List Piece}, (∀ c ∈ u, c ∉ ([0, 10, 34, 92] : List Byte)) → srcs ps = u ++ t →
    ∃ ps', ps = u.map Piece.plain ++ ps' ∧ srcs ps' = t
  | [], t, ps, _, h => ⟨ps, rfl, h⟩
  | c :: u, t, ps, hu, h => by
    have hc : c ≠ 92 := by rintro rfl; exact hu _ (List.mem_cons_self ..) (by decide)
    obtain ⟨ps1, rfl, h1⟩ := LE.srcs_head (ps := ps) (c := c) (s := u ++ t) h hc
    obtain ⟨ps2, rfl, h2⟩ := srcs_prefix (fun c hc => hu c (List.mem_cons_of_mem _ hc)) h1.symm
    exact ⟨ps2, rfl, h2⟩

theorem dec_prefix : ∀ {u : Str}, (∀ c ∈ u, c ∉ ([0, 10, 34, 92] : List Byte)) → ∀ t : Str,
    cDec .norm (u ++ t) = (cDec .norm t).map (u ++ ·)
  | [], _, t => by
    show cDec .norm t = _
    cases cDec .norm t <;> rfl
  | c :: u, h, t => by
    have hc := h c (List.mem_cons_self ..)
    rw [List.cons_append, LE.dec_norm_plain (by
      intro hm; apply hc
      simp only [List.mem_cons, List.not_mem_nil, or_false] at hm ⊢
      exact Or.inr hm), dec_prefix (fun c hc => h c (List.mem_cons_of_mem _ hc)) t]
    cases cDec .norm t <;> rfl

/-- The modifier after widening. -/
def wide (L : Len) (c : Byte) (args : List ATy) : Len :=
  match args with
  | [] => L
  | a :: _ => if L = .none ∧ ((c = 100 ∨ c = 105) ∧ a.kind = .int ∨ c = 117 ∧ a.kind = .uint) then .ll else L

theorem lenText_nil {L : Len} : lenText L = [] ↔ L = .none := by cases L <;> simp [lenText]

theorem widen_text (L : Len) (c : Byte) (args : List ATy) : lenText L ++ widen (lenText L) c args = lenText (wide L c args) := by
  cases args with
  | nil => simp [widen, wide]
  | cons a as =>
    unfold widen wide
    simp only [lenText_nil]
    split
    · rename_i h; rw [h.1]; rfl
    · exact List.append_nil _

theorem wide_ne {L : Len} (h : L ≠ .jzt) (c : Byte) (args : List ATy) : wide L c args ≠ .jzt := by
  cases args with
  | nil => exact h
  | cons a as => unfold wide; dsimp only; split; decide; exact h

theorem sound_fits {L : Len} {c : Byte} {a : ATy} {as : List ATy} (h : sound L c a = true) :
    fits a.c (wants (wide L c (a :: as)) c) := by
  have hc : c ∈ ([100, 105, 117, 120, 88, 111, 102, 103, 101, 71, 69, 115, 99] : List Byte) := by
    unfold sound at h
    by_cases hm : c ∈ ([100, 105, 117, 120, 88, 111, 102, 103, 101, 71, 69, 115, 99] : List Byte)
    · exact hm
    · exfalso
      simp only [List.mem_cons, List.not_mem_nil, or_false, not_or] at hm
      simp only [List.mem_cons, List.not_mem_nil, or_false, hm, if_false, false_or] at h
      cases h
  have hw : wide L c (a :: as) = wide L c [a] := rfl
  rw [hw]
  revert h
  clear hw
  simp only [List.mem_cons, List.not_mem_nil, or_false] at hc
  rcases hc with rfl | rfl | rfl | rfl | rfl | rfl | rfl | rfl | rfl | rfl | rfl | rfl | rfl <;> cases L <;> cases a <;> decide

/-- What is known about a format after the loops. -/
structure Done (n : Nat) (ps : List Piece) (args : List ATy) (is : List FItem) (f : Str) (js : List FItem) : Prop where
  dec : ∀ t, cDec .norm (emitLoop n (srcs ps) args ++ t) = (cDec .norm t).map (f ++ ·)
  nul : 0 ∉ f
  read : ∀ t, items none (f ++ t) = (items none t).map (js ++ ·)
  bare : js.map FItem.bare = is.map FItem.bare
  count : (convsOf is).length = (checkLoop n (srcs ps) args).2
  good : args.length = (checkLoop n (srcs ps) args).2 → (∀ p ∈ (convsOf is).zip args, sound p.1.1 p.1.2 p.2 = true) →
    GoodCall (convsOf js) (args.map ATy.c)

theorem simple_esc {c : Byte} (h : Simple (.esc c)) : ∃ b, (c, b) ∈ cEscs ∧ (Piece.esc c).value = b ∧ b ≠ 37 ∧ b ≠ 0 ∧ c ≠ 37 := by
  obtain ⟨h1, h2⟩ := h
  have h3 := (h2 c).1 rfl
  have h1 : c ∈ strEscs.map (·.1) := h1
  have : ∀ c ∈ strEscs.map (·.1), c ≠ 48 → c ≠ 36 →
      ∃ p ∈ cEscs, p.1 = c ∧ (Piece.esc c).value = p.2 ∧ p.2 ≠ 37 ∧ p.2 ≠ 0 ∧ c ≠ 37 := by decide +kernel
  obtain ⟨⟨c', b⟩, hm, rfl, e1, e2, e3, e4⟩ := this c h1 h3.1 h3.2
  exact ⟨b, hm, e1, e2, e3, e4⟩

theorem check_char {n : Nat} {c : Byte} (h : c ≠ 37) (s : Str) (args : List ATy) :
    checkLoop (n + 1) (c :: s) args = checkLoop n s args := if_pos h

theorem emit_char {n : Nat} {c : Byte} (h : c ≠ 37) (s : Str) (args : List ATy) :
    emitLoop (n + 1) (c :: s) args = c :: emitLoop n s args := if_pos h

theorem check_dir {n : Nat} {d : Byte} (h1 : d ≠ 37) (h2 : d ≠ 110) {q : Str} {args : List ATy} :
    checkLoop (n + 1) (37 :: d :: q) args = (match skipLen (header (d :: q)).2 with
      | [] => (false, 0)
      | spec :: p =>
        if known spec then
          match args with
          | [] => ((checkLoop n p args.tail).1, (checkLoop n p args.tail).2 + 1)
          | a :: _ => (takes spec a.kind && (checkLoop n p args.tail).1, (checkLoop n p args.tail).2 + 1)
        else (false, (checkLoop n p args.tail).2 + 1)) :=
  (if_neg h1).trans (if_neg h2)

theorem check_dir1 {n : Nat} {d : Byte} (h1 : d ≠ 37) (h2 : d ≠ 110) {q : Str} {args : List ATy}
    (hc : (checkLoop (n + 1) (37 :: d :: q) args).1 = true) : ∃ spec p, skipLen (header (d :: q)).2 = spec :: p ∧ known spec = true ∧
      (checkLoop n p args.tail).1 = true ∧ (checkLoop (n + 1) (37 :: d :: q) args).2 = (checkLoop n p args.tail).2 + 1 := by
  rw [check_dir h1 h2] at hc ⊢
  cases hs : skipLen (header (d :: q)).2 with
  | nil => rw [hs] at hc; cases hc
  | cons spec p =>
    rw [hs] at hc
    dsimp only at hc ⊢
    by_cases hk : known spec = true
    · rw [if_pos hk] at hc ⊢
      refine ⟨spec, p, rfl, hk, ?_, ?_⟩
      · cases args with
        | nil => exact hc
        | cons a as => simp only [Bool.and_eq_true] at hc; exact hc.2
      · cases args <;> rfl
    · rw [if_neg hk] at hc; cases hc

theorem emit_dir {n : Nat} {d : Byte} (h1 : d ≠ 37) {q : Str} {args : List ATy} {h h2 l p : Str} {spec : Byte}
    (hh : header (d :: q) = (h, h2)) (hl : emitLen h2 = (l, spec :: p)) :
    emitLoop (n + 1) (37 :: d :: q) args = 37 :: (h ++ l ++ widen l spec args ++ spec :: emitLoop n p args.tail) := by
  have e : emitLoop (n + 1) (37 :: d :: q) args = (match (emitLen (header (d :: q)).2).2 with
      | [] => 37 :: ((header (d :: q)).1 ++ (emitLen (header (d :: q)).2).1)
      | spec :: p => 37 :: ((header (d :: q)).1 ++ (emitLen (header (d :: q)).2).1 ++
          widen (emitLen (header (d :: q)).2).1 spec args ++ spec :: emitLoop n p args.tail)) :=
    if_neg h1
  rw [e, hh, hl]

theorem items_text {c : Byte} (h : c ≠ 37) (s : Str) : items none (c :: s) = (items none s).map (FItem.text c :: ·) := if_neg h

theorem items_pct (s : Str) : items none (37 :: 37 :: s) = (items none s).map (FItem.percent :: ·) := by
  rw [items, if_pos rfl, items, if_pos ⟨rfl, rfl, rfl⟩]

theorem opt_cons {α : Type} {o : Option (List α)} {x : α} {r : List α} (h : o.map (x :: ·) = some r) :
    ∃ r', o = some r' ∧ r = x :: r' := by
  cases o with
  | none => cases h
  | some r' => cases h; exact ⟨r', rfl, rfl⟩

theorem map_map_cons {α : Type} (o : Option (List α)) (x : α) (l : List α) :
    (o.map (l ++ ·)).map (x :: ·) = o.map ((x :: l) ++ ·) := by cases o <;> rfl

theorem done_text {n m : Nat} {ps ps' : List Piece} {args : List ATy} {is js : List FItem} {f : Str} {b : Byte}
    (h : Done n ps args is f js) (hb : b ≠ 37) (hb0 : b ≠ 0)
    (he : ∀ t, cDec .norm (emitLoop m (srcs ps') args ++ t) = (cDec .norm (emitLoop n (srcs ps) args ++ t)).map (b :: ·))
    (hc : checkLoop m (srcs ps') args = checkLoop n (srcs ps) args) :
    Done m ps' args (.text b :: is) (b :: f) (.text b :: js) where
  dec t := by rw [he, h.dec, map_map_cons]
  nul := by intro hm; exact (List.mem_cons.mp hm).elim (fun e => hb0 e.symm) h.nul
  read t := by rw [List.cons_append, items_text hb, h.read, map_map_cons]
  bare := by rw [List.map_cons, List.map_cons, h.bare]
  count := by rw [hc]; exact h.count
  good := by rw [hc]; exact h.good

theorem main : ∀ (n : Nat) (ps : List Piece) (args : List ATy) (is : List FItem), (∀ p ∈ ps, Simple p) → (srcs ps).length ≤ n →
    (checkLoop n (srcs ps) args).1 = true → items none (ps.map Piece.value) = some is → ∃ f js, Done n ps args is f js
  | 0, ps, args, is, hs, hn, hc, hi => by
    have : ps = [] := by
      cases ps with
      | nil => rfl
      | cons p ps => exfalso; cases p <;> simp [srcs, Piece.src] at hn
    subst this
    cases hi
    refine ⟨[], [], fun t => by cases h : cDec .norm t <;> simp [emitLoop, srcs, h], by simp, fun t => by cases h : items none t <;> simp [h], rfl, rfl,
      fun h _ => ?_⟩
    have : args = [] := List.eq_nil_of_length_eq_zero h
    subst this; exact .nil
  | n + 1, [], args, is, hs, hn, hc, hi => by
    cases hi
    refine ⟨[], [], fun t => by cases h : cDec .norm t <;> simp [emitLoop, srcs, h], by simp, fun t => by cases h : items none t <;> simp [h], rfl, rfl,
      fun h _ => ?_⟩
    have : args = [] := List.eq_nil_of_length_eq_zero h
    subst this; exact .nil
  | n + 1, .hex a b :: ps, args, is, hs, hn, hc, hi => absurd rfl (((hs _ (List.mem_cons_self ..)).2 a).2 b)
  | n + 1, .esc c :: ps, args, is, hs, hn, hc, hi => by
    obtain ⟨b, hm, hv, h37, h0, hc37⟩ := simple_esc (hs _ (List.mem_cons_self ..))
    have hsrc : srcs (.esc c :: ps) = 92 :: c :: srcs ps := rfl
    rw [hsrc] at hn
    simp only [List.length_cons] at hn
    match n, hn with
    | n + 1, hn =>
    have hcc : checkLoop (n + 1 + 1) (srcs (.esc c :: ps)) args = checkLoop n (srcs ps) args := by
      rw [hsrc, check_char (by decide), check_char hc37]
    have hee : emitLoop (n + 1 + 1) (srcs (.esc c :: ps)) args = 92 :: c :: emitLoop n (srcs ps) args := by
      rw [hsrc, emit_char (by decide), emit_char hc37]
    rw [hcc] at hc
    rw [List.map_cons, hv, items_text h37] at hi
    obtain ⟨is', hi', rfl⟩ := opt_cons hi
    obtain ⟨f, js, hd⟩ := main n ps args is' (fun p hp => hs p (List.mem_cons_of_mem _ hp)) (by omega) hc hi'
    refine ⟨b :: f, .text b :: js, done_text hd h37 h0 (fun t => ?_) hcc⟩
    rw [hee]
    show cDec .norm (92 :: c :: (emitLoop n (srcs ps) args ++ t)) = _
    rw [LE.dec_esc, LE.dec_simple hm]
  | n + 1, .plain c :: ps, args, is, hs, hn, hc, hi => by
    have hok : c ∉ ([0, 10, 34, 92] : List Byte) := (hs _ (List.mem_cons_self ..)).1
    have hps : ∀ p ∈ ps, Simple p := fun p hp => hs p (List.mem_cons_of_mem _ hp)
    have hsrc : srcs (.plain c :: ps) = c :: srcs ps := rfl
    rw [hsrc] at hn
    simp only [List.length_cons] at hn
    by_cases hc37 : c ≠ 37
    · have hcc : checkLoop (n + 1) (srcs (.plain c :: ps)) args = checkLoop n (srcs ps) args := check_char hc37 _ _
      have hee : emitLoop (n + 1) (srcs (.plain c :: ps)) args = c :: emitLoop n (srcs ps) args := emit_char hc37 _ _
      rw [hcc] at hc
      have hi : items none (c :: ps.map Piece.value) = some is := hi
      rw [items_text hc37] at hi
      obtain ⟨is', hi', rfl⟩ := opt_cons hi
      obtain ⟨f, js, hd⟩ := main n ps args is' hps (by omega) hc hi'
      refine ⟨c :: f, .text c :: js, done_text hd hc37 (by rintro rfl; exact hok (by decide)) (fun t => ?_) hcc⟩
      rw [hee]
      exact (dec_prefix (u := [c]) (fun x hx => by rw [List.mem_singleton.mp hx]; exact hok) _)
    · have hc37 : c = 37 := by simpa using hc37
      subst hc37
      cases hsp : srcs ps with
      | nil =>
        exfalso
        rw [hsrc, hsp] at hc; cases hc
      | cons d q =>
        by_cases hd37 : d = 37
        · subst hd37
          obtain ⟨ps1, rfl, hq⟩ := LE.srcs_head hsp (by decide)
          have hq' : q = srcs ps1 := hq
          subst hq'
          have hcc : checkLoop (n + 1) (srcs (.plain 37 :: .plain 37 :: ps1)) args = checkLoop n (srcs ps1) args := rfl
          have hee : emitLoop (n + 1) (srcs (.plain 37 :: .plain 37 :: ps1)) args = 37 :: 37 :: emitLoop n (srcs ps1) args := rfl
          rw [hcc] at hc
          have hi : items none (37 :: 37 :: ps1.map Piece.value) = some is := hi
          rw [items_pct] at hi
          obtain ⟨is', hi', rfl⟩ := opt_cons hi
          rw [hsp] at hn
          simp only [List.length_cons] at hn
          obtain ⟨f, js, hd⟩ := main n ps1 args is' (fun p hp => hps p (List.mem_cons_of_mem _ hp)) (by omega) hc hi'
          refine ⟨37 :: 37 :: f, .percent :: js, fun t => ?_, ?_, fun t => ?_, ?_, ?_, ?_⟩
          · rw [hee]
            have := dec_prefix (u := [37, 37]) (by decide) (emitLoop n (srcs ps1) args ++ t)
            rw [hd.dec] at this
            refine this.trans ?_
            cases cDec .norm t <;> rfl
          · intro hm
            rcases List.mem_cons.mp hm with e | hm
            · revert e; decide
            · rcases List.mem_cons.mp hm with e | hm
              · revert e; decide
              · exact hd.nul hm
          · show items none (37 :: 37 :: (f ++ t)) = _
            rw [items_pct, hd.read, map_map_cons]
          · rw [List.map_cons, List.map_cons, hd.bare]
          · rw [hcc]; exact hd.count
          · rw [hcc]; exact hd.good
        · have hd110 : d ≠ 110 := by
            rintro rfl
            rw [hsrc, hsp] at hc; cases hc
          obtain ⟨hP, hshape⟩ := header_spec (srcs ps)
          obtain ⟨L, hLj, hel, hsk⟩ := len_agree (header (srcs ps)).2
          rw [hsrc, hsp] at hc
          obtain ⟨spec, p, hsl, hkn, hc1, hc2⟩ := check_dir1 hd37 hd110 hc
          rw [← hsp] at hsl hc2
          obtain ⟨hkb, hkc⟩ := known_bytes hkn
          have hsplit : srcs ps = ((header (srcs ps)).1 ++ lenText L ++ [spec]) ++ p := by
            conv => lhs; rw [hP, hsk, hsl]
            simp
          obtain ⟨h, h2, hh⟩ : ∃ h h2, header (srcs ps) = (h, h2) := ⟨_, _, rfl⟩
          rw [hh] at hP hshape hel hsk hsl hsplit
          dsimp only at hP hshape hel hsk hsl hsplit
          have hu : ∀ c ∈ h ++ lenText L ++ [spec], c ∉ ([0, 10, 34, 92] : List Byte) := by
            intro c hc
            rcases List.mem_append.mp hc with hc | hc
            · rcases List.mem_append.mp hc with hc | hc
              · exact shape_bytes hshape c hc
              · exact lenText_bytes L c hc
            · rw [List.mem_singleton.mp hc]; exact hkb
          have hu' : ∀ c ∈ 37 :: (h ++ lenText (wide L spec args) ++ [spec]), c ∉ ([0, 10, 34, 92] : List Byte) := by
            intro c hc
            rcases List.mem_cons.mp hc with rfl | hc
            · decide
            rcases List.mem_append.mp hc with hc | hc
            · rcases List.mem_append.mp hc with hc | hc
              · exact shape_bytes hshape c hc
              · exact lenText_bytes _ c hc
            · rw [List.mem_singleton.mp hc]; exact hkb
          obtain ⟨ps2, hps2, hp⟩ := srcs_prefix hu hsplit
          subst hp
          have hval : ps.map Piece.value = h ++ (lenText L ++ spec :: ps2.map Piece.value) := by
            have hid : ∀ u : Str, (u.map Piece.plain).map Piece.value = u := fun u => by
              rw [List.map_map]; exact (List.map_congr_left (g := id) fun _ _ => rfl).trans (List.map_id _)
            rw [hps2, List.map_append, hid]; simp
          have hi : items (some ([], .flags)) (ps.map Piece.value) = some is := hi
          rw [hval] at hi
          obtain ⟨k, hk, hik⟩ := shape_items hshape (lenText L ++ spec :: ps2.map Piece.value)
          rw [hik] at hi
          have hcv : spec ∈ convs := by
            rcases hkc with h | h
            · exact h
            · rw [(items_end hk hLj _).2 h] at hi; cases hi
          rw [(items_end hk hLj _).1 hcv] at hi
          obtain ⟨is', hi', rfl⟩ := opt_cons hi
          have hlen : (srcs ps2).length ≤ n := by
            have := congrArg List.length hsplit
            simp only [List.length_append] at this
            omega
          obtain ⟨f, js, hd⟩ := main n ps2 args.tail is' (fun p hp => hps p (by rw [hps2]; exact List.mem_append_right _ hp)) hlen hc1 hi'
          have hemit : emitLoop (n + 1) (srcs (.plain 37 :: ps)) args =
              37 :: (h ++ lenText (wide L spec args) ++ [spec]) ++ emitLoop n (srcs ps2) args.tail := by
            rw [hsl] at hel
            rw [hsrc, hsp, emit_dir hd37 (hsp ▸ hh) hel]
            rw [← widen_text]
            simp
          refine ⟨37 :: (h ++ lenText (wide L spec args) ++ [spec]) ++ f, .conv h (wide L spec args) spec :: js,
            fun t => ?_, ?_, fun t => ?_, ?_, ?_, ?_⟩
          · rw [hemit, List.append_assoc, dec_prefix hu', hd.dec]
            cases cDec .norm t <;> simp
          · intro hm
            rcases List.mem_append.mp hm with hm | hm
            · exact hu' 0 hm (by decide)
            · exact hd.nul hm
          · show items (some ([], .flags)) ((h ++ lenText (wide L spec args) ++ [spec]) ++ f ++ t) = _
            obtain ⟨k, hk, hik⟩ := shape_items hshape (lenText (wide L spec args) ++ spec :: (f ++ t))
            rw [show (h ++ lenText (wide L spec args) ++ [spec]) ++ f ++ t = h ++ (lenText (wide L spec args) ++ spec :: (f ++ t)) by simp,
              hik, (items_end hk (wide_ne hLj _ _) _).1 hcv, hd.read, map_map_cons]
          · rw [List.map_cons, List.map_cons, hd.bare]; rfl
          · show (convsOf is').length + 1 = _
            rw [hsrc, hc2, hd.count]
          · rw [hsrc, hc2]
            intro hl hsd
            cases args with
            | nil => cases hl
            | cons a as =>
              exact .cons (sound_fits (hsd ((L, spec), a) (List.mem_cons_self ..)))
                (hd.good (by simpa using hl) (fun p hp => hsd p (List.mem_cons_of_mem _ hp)))

end Pf

/-- C156 holds for literals made of plain characters and escapes other than `\\x`, `\\0` and `\\$` whose value is a C format.  Missing:
those escapes (`C156_witness`, `C156_dangling_witness`, `C156_hex_witness`), raw strings with quotes, backslashes or line feeds
(`C156_raw_witness`), and `%b`, which is no conversion of C11 (`C157_b_witness`). -/
theorem C156_partial (ps : List Piece) (args : List ATy) (nl : Bool) (is : List FItem) (hs : ∀ p ∈ ps, Simple p)
    (hi : items none (ps.map Piece.value) = some is) (ha : accepts (srcs ps) args = true) :
    ∃ f js, cDec .norm (emitFormat (srcs ps) args nl) = some f ∧ cItems f = some js ∧
      js.map FItem.bare = is.map FItem.bare ++ (if nl then [.text 10] else []) := by
  unfold accepts at ha
  simp only [Bool.and_eq_true, beq_iff_eq] at ha
  obtain ⟨f, js, hd⟩ := Pf.main _ ps args is hs (Nat.le_refl _) ha.1.1 hi
  cases nl with
  | false =>
    refine ⟨f, js, ?_, ?_, ?_⟩
    · have := hd.dec []
      unfold emitFormat; simpa [cDec] using this
    · unfold cItems
      rw [LE.takeWhile_nz hd.nul]
      have := hd.read []
      simpa [items] using this
    · simpa using hd.bare
  | true =>
    refine ⟨f ++ [10], js ++ [.text 10], ?_, ?_, ?_⟩
    · have := hd.dec [92, 110]
      rw [show cDec .norm [92, 110] = some [10] from by decide +kernel] at this
      exact this
    · unfold cItems
      rw [LE.takeWhile_nz (by
        intro hm
        rcases List.mem_append.mp hm with hm | hm
        · exact hd.nul hm
        · revert hm; decide), hd.read]
      rfl
    · simpa [FItem.bare] using hd.bare

/-- C157 holds for the pairs in `sound`, with literals as in `C156_partial`.  Missing: `%x`, `%X`, `%o` with `int` and `uint`
(`C157_witness`), `%d` and `%u` with types below 64 bits (`C157_i32_witness`), `%c` with `int`, `%Lf`, `%ls`, the wide types
(`C157_more_witness`), `%b` (`C157_b_witness`). -/
theorem C157_partial (ps : List Piece) (args : List ATy) (nl : Bool) (is : List FItem) (hs : ∀ p ∈ ps, Simple p)
    (hi : items none (ps.map Piece.value) = some is) (ha : accepts (srcs ps) args = true)
    (hp : ∀ p ∈ (convsOf is).zip args, sound p.1.1 p.1.2 p.2 = true) (f : Str) (js : List FItem)
    (hf : cDec .norm (emitFormat (srcs ps) args nl) = some f) (hj : cItems f = some js) :
    (convsOf is).length = args.length ∧ GoodCall (convsOf js) (args.map ATy.c) := by
  unfold accepts at ha
  simp only [Bool.and_eq_true, beq_iff_eq] at ha
  obtain ⟨f', js', hd⟩ := Pf.main _ ps args is hs (Nat.le_refl _) ha.1.1 hi
  refine ⟨by rw [hd.count, ha.1.2], ?_⟩
  have hg := hd.good ha.1.2 hp
  cases nl with
  | false =>
    have h1 := hd.dec []
    unfold emitFormat at hf
    simp only [List.append_nil, Bool.false_eq_true, if_false] at hf h1
    rw [h1] at hf
    simp [cDec] at hf
    subst hf
    unfold cItems at hj
    rw [LE.takeWhile_nz hd.nul] at hj
    have h2 := hd.read []
    rw [List.append_nil, hj] at h2
    simp [items] at h2
    rw [h2]; exact hg
  | true =>
    have h1 := hd.dec [92, 110]
    rw [show cDec .norm [92, 110] = some [10] from by decide +kernel] at h1
    have hf : cDec .norm (emitLoop (srcs ps).length (srcs ps) args ++ [92, 110]) = some f := hf
    rw [h1] at hf
    simp at hf
    subst hf
    unfold cItems at hj
    rw [LE.takeWhile_nz (by
        intro hm
        rcases List.mem_append.mp hm with hm | hm
        · exact hd.nul hm
        · revert hm; decide)] at hj
    have h3 := hd.read [10]
    rw [show items none [10] = some [.text 10] by decide +kernel] at h3
    have h4 : some (js' ++ [FItem.text 10]) = some js := h3.symm.trans hj
    have hj : js' ++ [FItem.text 10] = js := by simpa using h4
    subst hj
    have : convsOf (js' ++ [FItem.text 10]) = convsOf js' := by simp [convsOf]
    rw [this]; exact hg

/-- A call to which both apply: `printfln("%-10s %5d\\t%u%% %c %.2f", s, n, u, c, x)`. -/
example : accepts (lit "%-10s %5d\\t%u%% %c %.2f") [.string, .int, .uint, .char, .float] = true ∧
    cDec .norm (emitFormat (lit "%-10s %5d\\t%u%% %c %.2f") [.string, .int, .uint, .char, .float] true) =
      some (lit "%-10s %5lld\t%llu%% %c %.2f\n") := by decide +kernel
example : accepts (lit "%5") [] = false ∧ accepts (lit "%d") [] = false ∧ accepts (lit "%d") [.string] = false ∧
    accepts (lit "%*d") [.int, .int] = false ∧ accepts (lit "%5n") [.int] = false ∧ accepts (lit "%d") [.int, .int] = false := by
  decide +kernel

/-! ## C158: padding -/

/-- Text as code points, in UTF-8. -/
def enc (cs : List Nat) : Str := cs.flatMap utf8

/-- A string with this text. -/
def Shows (g : GStr) (cs : List Nat) : Prop := g = ⟨enc cs, (enc cs).length⟩

/-- C158: padding puts copies of the character before the text, after it, or in halves before and after it, until there are `width`
characters; text that has as many is left alone. -/
def C158_statement : Prop :=
  ∀ (cs : List Nat) (width : Int) (c : Nat), (∀ x ∈ cs, Scalar x) → Scalar c → 
    let k := (width - cs.length).toNat
    Shows (padLeft (enc cs) width (toByte c)) (List.replicate k c ++ cs) ∧
    Shows (padRight (enc cs) width (toByte c)) (cs ++ List.replicate k c) ∧
    Shows (center (enc cs) width (toByte c)) (List.replicate (k / 2) c ++ cs ++ List.replicate (k - k / 2) c)

/-- The width is taken in bytes: `pad_left("é", 3, ' ')` has two characters. -/
theorem C158_witness : padLeft (enc [233]) 3 (toByte 32) = ⟨enc [32, 233], 3⟩ := by decide +kernel

/-- One byte of the padding character is left: `pad_left("a", 2, 'é')` is the byte 0xE9 and `a`, which is no UTF-8. -/
theorem C158_char_witness : padLeft (enc [97]) 2 (toByte 233) = ⟨[0xE9, 97], 2⟩ := by decide +kernel

/-- From a width of 2^31 on the length of the result is negative. -/
theorem C158_len_witness : (padLeft [] 2147483648 32).len = -2147483648 := by
  unfold padLeft
  rw [if_neg (by decide)]
  show toLen 2147483648 = _
  decide

theorem C158_fails : ¬ C158_statement := by
  intro h
  have h1 := (h [233] 3 32 (by unfold Scalar; decide +kernel) (by unfold Scalar; decide +kernel)).1
  rw [Shows, C158_witness] at h1
  revert h1; decide +kernel

namespace Pf

theorem enc_ascii : ∀ {cs : List Nat}, (∀ x ∈ cs, x < 128) → enc cs = cs.map toByte
  | [], _ => rfl
  | c :: cs, h => by
    have hc := h c (List.mem_cons_self ..)
    have : utf8 c = [toByte c] := by unfold utf8; rw [if_pos (by omega)]; rfl
    show utf8 c ++ enc cs = _
    rw [this, enc_ascii (fun x hx => h x (List.mem_cons_of_mem _ hx))]; rfl

theorem toLen_small {w : Int} (h0 : 0 ≤ w) (h : w < 2 ^ 31) : toLen w = w := by
  unfold toLen
  rw [Int.bmod_def]
  have : w % ((2 ^ 32 : Nat) : Int) = w := Int.emod_eq_of_lt (by omega) (by omega)
  rw [this]
  exact if_pos (by omega)

end Pf

/-- C158 holds for ASCII text and characters and widths below 2^31.  Missing: other text (`C158_witness`), other characters
(`C158_char_witness`), larger widths (`C158_len_witness`). -/
theorem C158_partial (cs : List Nat) (width : Int) (c : Nat) (hcs : ∀ x ∈ cs, x < 128) (hc : c < 128) (hw : width < 2 ^ 31) :
    let k := (width - cs.length).toNat
    Shows (padLeft (enc cs) width (toByte c)) (List.replicate k c ++ cs) ∧
    Shows (padRight (enc cs) width (toByte c)) (cs ++ List.replicate k c) ∧
    Shows (center (enc cs) width (toByte c)) (List.replicate (k / 2) c ++ cs ++ List.replicate (k - k / 2) c) := by
  intro k
  have hr : ∀ n, ∀ x ∈ List.replicate n c, x < 128 := fun n x hx => by rw [List.eq_of_mem_replicate hx]; exact hc
  have hap : ∀ {a b : List Nat}, (∀ x ∈ a, x < 128) → (∀ x ∈ b, x < 128) → ∀ x ∈ a ++ b, x < 128 :=
    fun ha hb x hx => (List.mem_append.mp hx).elim (ha x) (hb x)
  have hl : (enc cs).length = cs.length := by rw [Pf.enc_ascii hcs, List.length_map]
  unfold Shows
  rw [Pf.enc_ascii (hap (hr k) hcs), Pf.enc_ascii (hap hcs (hr k)), Pf.enc_ascii (hap (hap (hr _) hcs) (hr _)), Pf.enc_ascii hcs]
  unfold padLeft padRight center
  simp only [List.length_map, List.map_append, List.map_replicate, List.length_append, List.length_replicate]
  by_cases hle : (cs.length : Int) ≥ width
  · have hk : k = 0 := by omega
    rw [hk]
    simp only [if_pos hle]
    simp
  · simp only [if_neg hle]
    have hd : ((width - (cs.length : Int)).tdiv 2).toNat = k / 2 := by
      rw [Int.tdiv_eq_ediv_of_nonneg (by omega)]; omega
    have hd' : (width - (cs.length : Int) - (width - (cs.length : Int)).tdiv 2).toNat = k - k / 2 := by
      rw [Int.tdiv_eq_ediv_of_nonneg (by omega)]; omega
    rw [hd, hd', Pf.toLen_small (by omega) hw]
    refine ⟨?_, ?_, ?_⟩ <;> congr 1 <;> omega

example : padLeft (lit "42") 5 (ch '0') = ⟨lit "00042", 5⟩ ∧ padRight (lit "ab") 4 (ch '.') = ⟨lit "ab..", 4⟩ ∧
    center (lit "ab") 5 (ch '*') = ⟨lit "*ab**", 5⟩ ∧ padLeft (lit "abc") 2 (ch '*') = ⟨lit "abc", 3⟩ := by decide +kernel

/-! ## C159: other bases -/

/-- The text is the numeral of `v` in the base: lower-case digits, the value, and no leading zero unless it is `0`. -/
def Numeral (base : Nat) (t : Str) (v : Nat) : Prop :=
  (∀ c ∈ t, digitOf' c < base ∧ (isDigit c = true ∨ isLower c = true)) ∧ t.foldl (fun a c => a * base + digitOf' c) 0 = v ∧ t ≠ [] ∧
    (t.head? = some 48 → t = [48])
where
  digitOf' (c : Byte) : Nat := if isDigit c then c.toNat - 48 else c.toNat - 87

namespace Pf

theorem digit_char : ∀ d : Fin 16, Numeral.digitOf' (ch (Nat.digitChar d)) = d ∧
    (isDigit (ch (Nat.digitChar d)) = true ∨ isLower (ch (Nat.digitChar d)) = true) ∧ (ch (Nat.digitChar d) = 48 → d.1 = 0) := by
  decide +kernel

theorem numeral_snoc {base : Nat} {t : Str} {v d : Nat} {c : Byte} (h : Numeral base t v) (hv : v ≠ 0)
    (hc : Numeral.digitOf' c = d ∧ (isDigit c = true ∨ isLower c = true)) (hd : d < base) : Numeral base (t ++ [c]) (v * base + d) := by
  obtain ⟨h1, h2, h3, h4⟩ := h
  refine ⟨?_, ?_, by simp, ?_⟩
  · intro x hx
    rcases List.mem_append.mp hx with hx | hx
    · exact h1 x hx
    · rw [List.mem_singleton.mp hx]; exact ⟨by rw [hc.1]; exact hd, hc.2⟩
  · rw [List.foldl_append, h2]
    show v * base + Numeral.digitOf' c = _
    rw [hc.1]
  · intro hh
    have := h4 (by cases t with | nil => exact absurd rfl h3 | cons a t => exact hh)
    rw [this] at h2
    refine absurd ?_ hv
    rw [← h2]
    show 0 * base + 0 = 0
    omega

theorem numeral_one {base d : Nat} {c : Byte} (hc : Numeral.digitOf' c = d ∧ (isDigit c = true ∨ isLower c = true)) (hd : d < base) :
    Numeral base [c] d := by
  refine ⟨?_, ?_, by simp, ?_⟩
  · intro x hx
    rw [List.mem_singleton.mp hx]; exact ⟨by rw [hc.1]; exact hd, hc.2⟩
  · show 0 * base + Numeral.digitOf' c = _
    rw [hc.1]; omega
  · intro h; cases h; rfl

theorem digits_numeral {base : Nat} (hb : 1 < base) (hb' : base ≤ 16) : ∀ v, Numeral base (digits base v) v := by
  intro v
  induction v using Nat.strongRecOn with
  | ind v ih =>
    unfold digits
    rw [Nat.toDigits_eq_if hb]
    by_cases h : v < base
    · rw [if_pos h]
      have := digit_char ⟨v, by omega⟩
      exact numeral_one ⟨this.1, this.2.1⟩ h
    · rw [if_neg h, List.map_append]
      have hq : v / base < v := Nat.div_lt_self (by omega) hb
      have hm : v % base < base := Nat.mod_lt _ (by omega)
      have := digit_char ⟨v % base, by omega⟩
      have h2 := numeral_snoc (ih _ hq) (Nat.ne_of_gt (Nat.div_pos (by omega) (by omega))) ⟨this.1, this.2.1⟩ hm
      rw [Nat.div_add_mod' v base] at h2
      exact h2

theorem bin_loop : ∀ (n v pos : Nat) (out : Str), v < 2 ^ pos → pos < n →
    ∃ t, binLoop n v pos out = .ok (pos - t.length, t ++ out) ∧ t.length ≤ pos ∧ (v ≠ 0 → Numeral 2 t v) ∧ (v = 0 → t = [])
  | 0, v, pos, out, _, h => by omega
  | n + 1, v, pos, out, hv, hp => by
    by_cases h0 : v > 0
    · have hpos : pos ≠ 0 := by rintro rfl; simp at hv; omega
      have hstep : binLoop (n + 1) v pos out = binLoop n (v / 2) (pos - 1) (BitVec.ofNat 8 (48 + v % 2) :: out) :=
        (if_pos h0).trans (if_neg hpos)
      have hv2 : v / 2 < 2 ^ (pos - 1) := by
        have : 2 ^ pos = 2 ^ (pos - 1) * 2 := by rw [← Nat.pow_succ]; congr 1; omega
        omega
      obtain ⟨t, h1, h2, h3, h4⟩ := bin_loop n (v / 2) (pos - 1) (BitVec.ofNat 8 (48 + v % 2) :: out) hv2 (by omega)
      have hm : v % 2 < 2 := Nat.mod_lt _ (by decide)
      have hd : Numeral.digitOf' (BitVec.ofNat 8 (48 + v % 2)) = v % 2 ∧ (isDigit (BitVec.ofNat 8 (48 + v % 2)) = true ∨
          isLower (BitVec.ofNat 8 (48 + v % 2)) = true) := by
        have : v % 2 = 0 ∨ v % 2 = 1 := by omega
        rcases this with h | h <;> rw [h] <;> decide
      refine ⟨t ++ [BitVec.ofNat 8 (48 + v % 2)], ?_, ?_, ?_, fun h => by omega⟩
      · rw [hstep, h1, List.length_append]
        simp only [List.length_singleton, List.append_assoc, List.singleton_append]
        congr 2
        omega
      · rw [List.length_append, List.length_singleton]; omega
      · intro _
        by_cases hq : v / 2 = 0
        · rw [h4 hq]
          have : v % 2 = v := by omega
          rw [List.nil_append]
          have h5 := numeral_one (base := 2) hd hm
          rw [this] at h5 ⊢
          exact h5
        · have h5 := numeral_snoc (h3 hq) hq hd hm
          rw [Nat.div_add_mod' v 2] at h5
          exact h5
    · refine ⟨[], (if_neg h0).trans ?_, by simp, fun h => by omega, fun _ => rfl⟩
      simp

end Pf

/-- C159: `int_to_hex`, `int_to_octal` and `int_to_binary` give the numeral of the number, for negative numbers that of their
two's complement in 64 bits. -/
theorem C159_bases (n : Int) :
    Numeral 16 (intToHex n) (n % 2 ^ 64).toNat ∧ Numeral 8 (intToOctal n) (n % 2 ^ 64).toNat ∧
    (-(2 ^ 63) ≤ n → n < 2 ^ 63 → ∃ t, intToBinary n = .ok t ∧ Numeral 2 t (n % 2 ^ 64).toNat) := by
  refine ⟨Pf.digits_numeral (by decide) (by decide) _, Pf.digits_numeral (by decide) (by decide) _, fun h1 h2 => ?_⟩
  unfold intToBinary toU64
  by_cases h0 : n = 0
  · subst h0
    exact ⟨[48], rfl, Pf.numeral_one (d := 0) (by decide) (by decide)⟩
  · rw [if_neg h0]
    obtain ⟨t, e, hl, hn, _⟩ := Pf.bin_loop 65 (n % 2 ^ 64).toNat 64 [] (by omega) (by omega)
    rw [e]
    refine ⟨t, ?_, hn (by omega)⟩
    show Outcome.ok ((t ++ []).take (64 - (64 - t.length))) = _
    rw [List.append_nil, List.take_of_length_le (by omega)]

example : intToHex 255 = lit "ff" ∧ intToOctal 8 = lit "10" ∧ intToBinary 5 = .ok (lit "101") ∧ intToHex (-1) = lit "ffffffffffffffff" ∧
    intToBinary (-1) = .ok (List.replicate 64 (ch '1')) := by decide +kernel

/-! ## C160: floating point numbers as text -/

/-- C160: `float_fixed` and `float_sci` give the text C formats for the number. -/
def C160_statement : Prop := ∀ text : Str, 0 ∉ text → floatText text = .ok text

/-- `float_fixed(1.0, 62)` loses its last digit to a 0 byte, and `float_fixed(1.0, 63)` reads past the buffer. -/
theorem C160_witness : floatText (lit "1." ++ List.replicate 62 (ch '0')) = .ok (lit "1." ++ List.replicate 61 (ch '0') ++ [0]) ∧
    floatText (lit "1." ++ List.replicate 63 (ch '0')) = .ub := by constructor <;> decide +kernel

theorem C160_fails : ¬ C160_statement := by
  intro h
  have h1 := h _ (by decide +kernel : 0 ∉ lit "1." ++ List.replicate 63 (ch '0'))
  rw [C160_witness.2] at h1
  cases h1

/-- C160 holds up to 63 bytes, and for no longer text.  Missing: longer text (`C160_witness`). -/
theorem C160_partial (text : Str) (h0 : 0 ∉ text) : floatText text = .ok text ↔ text.length ≤ 63 := by
  unfold floatText
  constructor
  · intro h
    by_cases h1 : text.length > 64
    · rw [if_pos h1] at h; cases h
    · rw [if_neg h1] at h
      by_cases h2 : text.length ≤ 63
      · exact h2
      · have h3 : text.length = 64 := by omega
        exfalso
        apply h0
        have h4 : (text.take 63 ++ [0]).take text.length = text := by simpa using h
        rw [← h4, h3]
        simp [List.take_append, List.length_take, h3]
  · intro h
    rw [if_neg (by omega), List.take_of_length_le (l := text) (by omega), List.take_left' rfl]

example : floatText (lit "3.14") = .ok (lit "3.14") := by decide +kernel

/-- The types a directive without flags, width, precision and length takes: `%b` takes all but structs, arrays, maps and pointers. -/
def single (c : Byte) (a : ATy) : Bool :=
  if c ∈ ([100, 105] : List Byte) then a ∈ [ATy.int, .i8, .i16, .i32, .i64, .i128, .i256, .char, .byte]
  else if c = 117 then a ∈ [ATy.uint, .u8, .u16, .u32, .u64, .u128, .u256, .byte]
  else if c ∈ ([120, 88, 111] : List Byte) then
    a ∈ [ATy.int, .i8, .i16, .i32, .i64, .i128, .i256, .uint, .u8, .u16, .u32, .u64, .u128, .u256, .byte]
  else if c ∈ ([102, 103, 101, 71, 69] : List Byte) then a ∈ [ATy.f32, .f64, .float]
  else if c = 115 then a = .string
  else if c = 99 then a ∈ [ATy.char, .int, .i8, .i16, .i32, .i64, .i128, .i256]
  else if c = 98 then a ≠ .composite
  else false

/-- What is accepted for a format of one directive, and that structs, arrays, maps and pointers never are. -/
theorem C157_single_partial :
    (∀ (c : Byte) (a : ATy), accepts [37, c] [a] = single c a) ∧
    (∀ (s : Str) (args : List ATy), accepts s args = true → .composite ∉ args) := by
  constructor
  · have key : ∀ (n : Fin 256) (a : ATy), accepts [37, (BitVec.ofFin n : Byte)] [a] = single (BitVec.ofFin n) a := by
      intro n a
      revert n
      cases a <;> decide +kernel
    intro c a
    exact key c.toFin a
  · intro s args h hm
    unfold accepts at h
    simp only [Bool.and_eq_true, Bool.not_eq_true', List.contains_eq_mem, decide_eq_false_iff_not] at h
    exact h.2 hm

end Verif.Props

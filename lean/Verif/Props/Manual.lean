import Verif.Model.Manual
/-
C339–C343: the library of the manual and the library of the checker.
-/
namespace Verif.Props
open Verif Verif.Str Verif.Manual

namespace Mn

def kinds : List Kind :=
  [.int, .uint, .byte, .char, .float, .bool, .string, .array, .map, .struct, .channel, .enum, .pointer, .func, .error, .nil, .void, .unknown]

theorem mem_kinds (k : Kind) : k ∈ kinds := by cases k <;> decide

/-- An argument of the documented type -/
def isOf : PTy → Kind → Bool
  | .string, .string => true
  | .int, .int => true
  | .uint, .uint => true
  | .float, .float => true
  | .bool, .bool => true
  | .char, .char => true
  | .byte, .byte => true
  | .array, .array => true
  | .map, .map => true
  | .func, .func => true
  | .struct, .struct => true
  | .number, .int => true
  | .number, .float => true
  | .any, _ => true
  | _, _ => false

/-- An argument that may stand for one of the documented type: any integer for an integer, any number for a number -/
def near : PTy → Kind → Bool
  | _, .unknown => true
  | .int, .int | .int, .uint | .int, .byte => true
  | .uint, .int | .uint, .uint | .uint, .byte => true
  | .byte, .int | .byte, .uint | .byte, .byte => true
  | .float, .int | .float, .uint | .float, .byte | .float, .float => true
  | .number, .int | .number, .uint | .number, .byte | .number, .float => true
  | .struct, .channel => true
  | p, k => isOf p k

/-- A call as the manual has it -/
def Conforms (s : Sig) (args : List Kind) : Prop :=
  s.params.length - s.opt ≤ args.length ∧ (s.rest = true ∨ args.length ≤ s.params.length) ∧
    ∀ (i : Nat) k p, args[i]? = some k → s.params[i]? = some p → isOf p k = true

/-- The manual has the function `s.fn` of module `m` with this signature. -/
def Documented (m : Str) (s : Sig) : Prop := ∃ g ∈ manual, g.1 = m ∧ s ∈ g.2

def arraysM : Str := lit "arrays"

def agrees (m : Str) (s : Sig) : Bool :=
  m == arraysM || (known m s.fn && match entry m s.fn with
    | none => false
    | some e => decide (e.least ≤ s.params.length - s.opt) && (s.rest || decide (s.params.length ≤ e.most)) && (!s.rest || decide (99 ≤ e.most)) &&
        e.checks.all fun c => match s.params[c.1]? with
          | none => !s.rest
          | some p => kinds.all fun k => !isOf p k || fits c.2 k)

set_option maxRecDepth 100000 in
theorem all_agree : (manual.all fun g => g.2.all fun s => agrees g.1 s) = true := by decide +kernel

theorem agree {m : Str} {s : Sig} (h : Documented m s) : agrees m s = true := by
  obtain ⟨g, hg, rfl, hs⟩ := h
  exact List.all_eq_true.1 (List.all_eq_true.1 all_agree g hg) s hs

theorem accept {m : Str} {s : Sig} (hd : Documented m s) (hm : m ≠ arraysM) {args : List Kind} (hc : Conforms s args) (hl : args.length ≤ 99) :
    accepts m s.fn args = true := by
  have h := agree hd
  have hm' : (m == arraysM) = false := by simpa using hm
  unfold agrees at h
  rw [hm', Bool.false_or, Bool.and_eq_true] at h
  obtain ⟨hk, h⟩ := h
  unfold accepts counted typed
  cases he : entry m s.fn with
  | none => rw [he] at h; exact nomatch h
  | some e =>
    rw [he] at h
    simp only [Bool.and_eq_true, decide_eq_true_eq, List.all_eq_true, Bool.or_eq_true, Bool.not_eq_true'] at h
    obtain ⟨⟨⟨h1, h2⟩, h3⟩, h4⟩ := h
    obtain ⟨c1, c2, c3⟩ := hc
    have hmost : args.length ≤ e.most := by
      rcases c2 with r | l
      · rcases h3 with r' | h3
        · rw [r] at r'; exact nomatch r'
        · omega
      · rcases h2 with r | h2
        · rcases h3 with r' | h3
          · rw [r] at r'; exact nomatch r'
          · omega
        · omega
    simp only [Bool.and_eq_true, decide_eq_true_eq, List.all_eq_true]
    refine ⟨⟨hk, Nat.le_trans h1 c1, hmost⟩, fun c hcm => ?_⟩
    cases ha : args[c.1]? with
    | none => rfl
    | some k =>
      have h5 := h4 c hcm
      cases hp : s.params[c.1]? with
      | none =>
        rw [hp] at h5
        have hlt : c.1 < args.length := by
          rcases Nat.lt_or_ge c.1 args.length with q | q
          · exact q
          · rw [List.getElem?_eq_none q] at ha; exact nomatch ha
        have hge : s.params.length ≤ c.1 := List.getElem?_eq_none_iff.1 hp
        rcases c2 with r | l
        · simp [r] at h5
        · omega
      | some p =>
        rw [hp] at h5
        have h6 := List.all_eq_true.1 h5 k (mem_kinds k)
        rw [c3 c.1 k p ha hp] at h6
        simpa using h6

/-! Numbers of arguments -/

/-- The manual has a signature with `k` arguments. -/
def fitsCount (s : Sig) (k : Nat) : Bool := decide (s.params.length - s.opt ≤ k) && (s.rest || decide (k ≤ s.params.length))

def hasCount (m f : Str) (k : Nat) : Bool := (group manual m).any fun s => s.fn == f && fitsCount s k

def isIn (t : List (Str × List Str)) (m f : Str) : Bool := (group t m).contains f

/-- The functions for which other numbers of arguments are accepted -/
def loose : List (Str × List Str) := [
  (lit "arrays", [lit "append", lit "insert_at", lit "prepend", lit "remove_at", lit "clear", lit "fill", lit "get_first", lit "get_last",
    lit "remove_first", lit "remove_last", lit "is_empty", lit "contains", lit "index_of", lit "count", lit "is_equal", lit "reverse",
    lit "slice", lit "concat", lit "deduplicate", lit "flatten", lit "split_every", lit "pair", lit "get_sum", lit "get_min",
    lit "get_max", lit "sort_asc", lit "sort_desc"]),
  (lit "random", [lit "rand_float", lit "rand_char"]),
  (lit "server", [lit "listen"]),
  (lit "sqlite", [lit "exec", lit "query"]),
  (lit "fmt", [lit "printf", lit "sprintf", lit "format", lit "printfln", lit "eprintf", lit "eprintfln", lit "sprintfln"])]

def small (m f : Str) : Bool :=
  (match entry m f with
    | none => false
    | some e => decide (e.most ≤ 4)) &&
  ((group manual m).all fun s => !(s.fn == f) || (!s.rest && decide (s.params.length ≤ 4))) &&
  (List.range 5).all fun k => counted m f k == hasCount m f k

set_option maxRecDepth 100000 in
theorem all_small : (manual.all fun g => g.2.all fun s => isIn loose g.1 s.fn || small g.1 s.fn) = true := by decide +kernel

theorem counts {m : Str} {s : Sig} (h : Documented m s) (hl : isIn loose m s.fn = false) (k : Nat) :
    counted m s.fn k = hasCount m s.fn k := by
  obtain ⟨g, hg, rfl, hs⟩ := h
  have h := List.all_eq_true.1 (List.all_eq_true.1 all_small g hg) s hs
  rw [hl, Bool.false_or] at h
  unfold small at h
  simp only [Bool.and_eq_true] at h
  obtain ⟨⟨h1, h2⟩, h3⟩ := h
  rcases Nat.lt_or_ge k 5 with hk | hk
  · exact beq_iff_eq.1 (List.all_eq_true.1 h3 k (List.mem_range.2 hk))
  · have e1 : counted g.1 s.fn k = false := by
      unfold counted
      cases he : entry g.1 s.fn with
      | none => rw [he] at h1; exact nomatch h1
      | some e =>
        rw [he] at h1
        have : e.most ≤ 4 := of_decide_eq_true h1
        have hn : ¬ k ≤ e.most := by omega
        simp [hn]
    have e2 : hasCount g.1 s.fn k = false := by
      unfold hasCount
      rw [List.any_eq_false]
      intro x hx hx'
      rw [Bool.and_eq_true] at hx'
      have h4 := List.all_eq_true.1 h2 x hx
      rw [hx'.1] at h4
      simp only [Bool.not_true, Bool.false_or, Bool.and_eq_true, Bool.not_eq_true', decide_eq_true_eq] at h4
      have h5 := hx'.2
      unfold fitsCount at h5
      simp only [Bool.and_eq_true, Bool.or_eq_true, decide_eq_true_eq] at h5
      rcases h5.2 with r | l
      · rw [h4.1] at r; exact nomatch r
      · omega
    rw [e1, e2]

/-! Types of arguments -/

/-- The parameters whose arguments are not looked at, or not well enough -/
def unchecked : List (Str × List (Str × List Nat)) := [
  (lit "server", [(lit "add_route", [0, 1, 2, 3]), (lit "listen", [0]), (lit "cors", [0, 1]), (lit "use", [0, 1]),
    (lit "text", [0]), (lit "json", [0]), (lit "html", [0]), (lit "redirect", [0])]),
  (lit "sqlite", [(lit "close", [0]), (lit "exec", [0, 1]), (lit "query", [0, 1])]),
  (lit "math", [(lit "sign", [0])])]

def skip (m f : Str) (i : Nat) : Bool := (group unchecked m).any fun u => u.1 == f && u.2.contains i

/-- An argument `i` of kind `k` is refused. -/
def refuses (m f : Str) (i : Nat) (k : Kind) : Bool :=
  match entry m f with
  | none => false
  | some e => e.checks.any fun c => c.1 == i && !fits c.2 k

def strict (m : Str) (s : Sig) : Bool :=
  m == arraysM || (List.range s.params.length).all fun i =>
    match s.params[i]? with
    | none => true
    | some p => kinds.all fun k => near p k || refuses m s.fn i k || skip m s.fn i

set_option maxRecDepth 100000 in
theorem all_strict : (manual.all fun g => g.2.all fun s => strict g.1 s) = true := by decide +kernel

theorem refused {m f : Str} {i : Nat} {k : Kind} (h : refuses m f i k = true) {args : List Kind} (ha : args[i]? = some k) :
    accepts m f args = false := by
  unfold refuses at h
  unfold accepts typed
  cases he : entry m f with
  | none => rw [he] at h; exact nomatch h
  | some e =>
    rw [he] at h
    obtain ⟨c, hc, h⟩ := List.any_eq_true.1 h
    rw [Bool.and_eq_true] at h
    have hi : c.1 = i := beq_iff_eq.1 h.1
    have : (e.checks.all fun c => match args[c.1]? with
        | none => true
        | some k => fits c.2 k) = false := by
      rw [List.all_eq_false]
      refine ⟨c, hc, ?_⟩
      rw [hi, ha]
      simpa using h.2
    rw [Bool.and_eq_false_iff]
    exact Or.inr this

end Mn

open Mn

/-- C339: a call with arguments of the number and types that `gray man` gives is accepted. -/
def C339_statement : Prop :=
  ∀ m s args, Documented m s → m ≠ lit "arrays" → Conforms s args → accepts m s.fn args = true

def Mn.printf : Sig := ⟨lit "printf", [.string], 0, true, none⟩

theorem Mn.printf_documented : Documented (lit "fmt") Mn.printf := by
  refine ⟨(lit "fmt", group manual (lit "fmt")), ?_, rfl, ?_⟩ <;> decide +kernel

/-- Not if `printf` has more than 98 values to print. -/
theorem C339_witness (n : Nat) (h : 99 ≤ n) : accepts (lit "fmt") (lit "printf") (List.replicate (n + 1) .string) = false := by
  have e : entry (lit "fmt") (lit "printf") = some ⟨lit "printf", 1, 99, [(0, .string)], none⟩ := by decide +kernel
  unfold accepts counted
  rw [e, List.length_replicate]
  have : ¬ n + 1 ≤ 99 := by omega
  simp [this]

theorem C339_fails : ¬ C339_statement := fun h => by
  have h1 := h (lit "fmt") Mn.printf (List.replicate 100 .string) Mn.printf_documented (by decide) (by
    refine ⟨by decide, Or.inl rfl, fun i k p ha hp => ?_⟩
    have hk : k = .string := by
      have := List.mem_of_getElem? ha
      exact (List.mem_replicate.1 this).2
    cases i with
    | zero =>
      have : p = .string := by simpa [Mn.printf] using hp.symm
      rw [hk, this]; rfl
    | succ i => simp [Mn.printf] at hp)
  have h2 : accepts (lit "fmt") Mn.printf.fn (List.replicate 100 .string) = false := C339_witness 99 (Nat.le_refl _)
  rw [h2] at h1
  exact nomatch h1

/-- Calls with up to 99 arguments are. (What is missing: `arrays`, whose checks of elements and callbacks are not in the model.) -/
theorem C339_partial (m : Str) (s : Sig) (args : List Kind) (hd : Documented m s) (hm : m ≠ lit "arrays") (hc : Conforms s args)
    (hl : args.length ≤ 99) : accepts m s.fn args = true := accept hd hm hc hl

/-- C340: a call with a number of arguments that the manual does not have is refused. -/
def C340_statement : Prop :=
  ∀ m s (args : List Kind), Documented m s → hasCount m s.fn args.length = false → accepts m s.fn args = false

/-- `rand_float(1.0)` is accepted, and has no text at all in C; `rand_char('a')` leaves out its argument; `arrays.slice()` is not even counted. -/
theorem C340_witness :
    hasCount (lit "random") (lit "rand_float") 1 = false ∧ accepts (lit "random") (lit "rand_float") [.float] = true ∧ randFloat 1 = none ∧
    hasCount (lit "random") (lit "rand_char") 1 = false ∧ accepts (lit "random") (lit "rand_char") [.char] = true ∧ randChar 1 = some 0 ∧
    hasCount (lit "arrays") (lit "slice") 0 = false ∧ accepts (lit "arrays") (lit "slice") [] = true ∧
    entry (lit "arrays") (lit "slice") = none := by decide +kernel

theorem C340_fails : ¬ C340_statement := fun h => by
  have hd : Documented (lit "random") ⟨lit "rand_float", [], 0, false, none⟩ := by
    refine ⟨(lit "random", group manual (lit "random")), ?_, rfl, ?_⟩ <;> decide +kernel
  have h1 := h _ _ [.float] hd C340_witness.1
  rw [C340_witness.2.1] at h1
  exact nomatch h1

/-- The functions other than those of `loose` take exactly the numbers of arguments of the manual. -/
theorem C340_partial (m : Str) (s : Sig) (hd : Documented m s) (hl : isIn loose m s.fn = false) (k : Nat) :
    counted m s.fn k = hasCount m s.fn k := counts hd hl k

/-- So wrong numbers are refused. -/
theorem C340_refuses_partial (m : Str) (s : Sig) (hd : Documented m s) (hl : isIn loose m s.fn = false) (args : List Kind)
    (h : hasCount m s.fn args.length = false) : accepts m s.fn args = false := by
  unfold accepts
  rw [counts hd hl, h, Bool.and_false, Bool.false_and]

/-- C341: an argument that cannot stand for one of the documented type is refused. -/
def C341_statement : Prop :=
  ∀ m s (args : List Kind) (i : Nat) p k, Documented m s → m ≠ lit "arrays" → s.params[i]? = some p → args[i]? = some k → near p k = false →
    accepts m s.fn args = false

/-- A string for the status, for the database and for the statement, and a number for a handler are accepted. -/
theorem C341_witness :
    accepts (lit "server") (lit "text") [.string, .string] = true ∧ accepts (lit "sqlite") (lit "exec") [.string, .int] = true ∧
    accepts (lit "server") (lit "add_route") [.int, .int, .int, .int] = true ∧ accepts (lit "math") (lit "sign") [.float] = true ∧
    near .int .string = false ∧ near .int .float = false := by decide +kernel

theorem C341_fails : ¬ C341_statement := fun h => by
  have hd : Documented (lit "server") ⟨lit "text", [.int, .string], 0, false, none⟩ := by
    refine ⟨(lit "server", group manual (lit "server")), ?_, rfl, ?_⟩ <;> decide +kernel
  have h1 := h _ _ [.string, .string] 0 .int .string hd (by decide) rfl rfl rfl
  rw [C341_witness.1] at h1
  exact nomatch h1

/-- It is, unless the parameter is one of `unchecked`. -/
theorem C341_partial (m : Str) (s : Sig) (args : List Kind) (i : Nat) (p : PTy) (k : Kind) (hd : Documented m s) (hm : m ≠ lit "arrays")
    (hp : s.params[i]? = some p) (ha : args[i]? = some k) (hn : near p k = false) (hs : skip m s.fn i = false) :
    accepts m s.fn args = false := by
  obtain ⟨g, hg, rfl, hsg⟩ := hd
  have h := List.all_eq_true.1 (List.all_eq_true.1 all_strict g hg) s hsg
  have hm' : (g.1 == arraysM) = false := by simpa [arraysM] using hm
  unfold strict at h
  rw [hm', Bool.false_or] at h
  have hi : i < s.params.length := by
    rcases Nat.lt_or_ge i s.params.length with q | q
    · exact q
    · rw [List.getElem?_eq_none q] at hp; exact nomatch hp
  have h1 := List.all_eq_true.1 h i (List.mem_range.2 hi)
  rw [hp] at h1
  have h2 := List.all_eq_true.1 h1 k (mem_kinds k)
  rw [hn, hs, Bool.false_or, Bool.or_false] at h2
  exact refused h2 ha

/-- Each of these lets something else pass. -/
theorem C341_unchecked :
    (unchecked.all fun g => g.2.all fun u => u.2.all fun i => (group manual g.1).any fun s => s.fn == u.1 &&
      match s.params[i]? with
      | none => false
      | some p => kinds.any fun k => !near p k && !refuses g.1 u.1 i k) = true := by decide +kernel

example : Documented (lit "fmt") Mn.printf ∧ accepts (lit "fmt") (lit "printf") [.string, .int] = true ∧
    accepts (lit "fmt") (lit "printf") [.int] = false := ⟨Mn.printf_documented, by decide +kernel, by decide +kernel⟩

/-- C342: a name that the checker accepts after the name of a module is that of a function there is in C. -/
def C342_statement : Prop := ∀ g ∈ emitted, ∀ f, known g.1 f = true → g.2.contains f = true

/-- `crypto.sha512`, `encoding.rot13`, `http.options`, `mem.make`, `mem.free` and `threads.spawn_arg` are accepted. -/
theorem C342_witness :
    known (lit "crypto") (lit "sha512") = true ∧ known (lit "encoding") (lit "rot13") = true ∧ known (lit "http") (lit "options") = true ∧
    known (lit "mem") (lit "make") = true ∧ known (lit "mem") (lit "free") = true ∧ known (lit "threads") (lit "spawn_arg") = true ∧
    (group emitted (lit "crypto")).contains (lit "sha512") = false := by decide +kernel

/-- In the modules without a list of names every name is. -/
theorem C342_any (f : Str) : known (lit "crypto") f = true ∧ known (lit "encoding") f = true ∧ known (lit "http") f = true ∧
    known (lit "binary") f = true := by
  have h : anyName (lit "crypto") = true ∧ anyName (lit "encoding") = true ∧ anyName (lit "http") = true ∧ anyName (lit "binary") = true := by
    decide +kernel
  unfold known
  rw [h.1, h.2.1, h.2.2.1, h.2.2.2]
  exact ⟨rfl, rfl, rfl, rfl⟩

theorem C342_fails : ¬ C342_statement := fun h => by
  have hm : (lit "crypto", group emitted (lit "crypto")) ∈ emitted := by decide +kernel
  have h1 := h _ hm (lit "sha512") C342_witness.1
  rw [C342_witness.2.2.2.2.2.2] at h1
  exact nomatch h1

/-- In `mem` and `threads` the names are those of functions, three apart. -/
theorem C342_partial (m : Str) (hm : m = lit "mem" ∨ m = lit "threads") (f : Str) (hk : known m f = true) :
    (group emitted m).contains f = true ∨ (m = lit "mem" ∧ (f = lit "make" ∨ f = lit "free")) ∨ (m = lit "threads" ∧ f = lit "spawn_arg") := by
  rcases hm with rfl | rfl
  · have t : ((group names (lit "mem")).all fun f => (group emitted (lit "mem")).contains f || f == lit "make" || f == lit "free") = true := by
      decide +kernel
    have a : anyName (lit "mem") = false := by decide +kernel
    unfold known at hk
    rw [a, Bool.false_or] at hk
    have h := List.all_eq_true.1 t f (List.contains_iff_mem.1 hk)
    simp only [Bool.or_eq_true, beq_iff_eq] at h
    rcases h with (h | h) | h
    · exact Or.inl h
    · exact Or.inr (Or.inl ⟨rfl, Or.inl h⟩)
    · exact Or.inr (Or.inl ⟨rfl, Or.inr h⟩)
  · have t : ((group names (lit "threads")).all fun f => (group emitted (lit "threads")).contains f || f == lit "spawn_arg") = true := by
      decide +kernel
    have a : anyName (lit "threads") = false := by decide +kernel
    unfold known at hk
    rw [a, Bool.false_or] at hk
    have h := List.all_eq_true.1 t f (List.contains_iff_mem.1 hk)
    simp only [Bool.or_eq_true, beq_iff_eq] at h
    rcases h with h | h
    · exact Or.inl h
    · exact Or.inr (Or.inr ⟨rfl, h⟩)

/-- The other way round the functions `raw_copy`, `zero` and `fill` of `mem`, which have entries in the table of the checker, cannot be called. -/
theorem C342_unreachable :
    (emitted.all fun g => g.2.all fun f => known g.1 f == !(g.1 == lit "mem" && (f == lit "raw_copy" || f == lit "zero" || f == lit "fill"))) = true ∧
    (entry (lit "mem") (lit "zero")).isSome = true ∧ known (lit "mem") (lit "zero") = false := by decide +kernel

/-- C343: the functions whose documented result is `(T, Error)` are those the checker has as fallible, and with `T` as the type of the value. -/
def C343_statement : Prop := ∀ m s e, Documented m s → entry m s.fn = some e → e.ok = s.result

/-- The rows of `sqlite.query` have the type `map`, which is not that of a map. -/
theorem C343_witness :
    (entry (lit "sqlite") (lit "query")).bind Meta.ok = some (lit "[map]") ∧
    ((group manual (lit "sqlite")).find? fun s => s.fn == lit "query").bind Sig.result = some (lit "[map[string:string]]") := by decide +kernel

theorem C343_fails : ¬ C343_statement := fun h => by
  have hd : Documented (lit "sqlite") ⟨lit "query", [.struct, .string], 0, false, some (lit "[map[string:string]]")⟩ := by
    refine ⟨(lit "sqlite", group manual (lit "sqlite")), ?_, rfl, ?_⟩ <;> decide +kernel
  have h1 := h _ _ ⟨lit "query", 2, 99, [], some (lit "[map]")⟩ hd (by decide +kernel)
  exact absurd h1 (by decide +kernel)

namespace Mn

def sameResult (m : Str) (s : Sig) : Bool :=
  match entry m s.fn with
  | none => true
  | some e => e.ok == s.result || (m == lit "sqlite" && s.fn == lit "query" && e.ok.isSome && s.result.isSome)

set_option maxRecDepth 100000 in
theorem all_results : (manual.all fun g => g.2.all fun s => sameResult g.1 s) = true := by decide +kernel

end Mn

/-- It is so for all others; and `sqlite.query` is fallible in both. -/
theorem C343_partial (m : Str) (s : Sig) (e : Meta) (hd : Documented m s) (he : entry m s.fn = some e) :
    e.ok.isSome = s.result.isSome ∧ (¬ (m = lit "sqlite" ∧ s.fn = lit "query") → e.ok = s.result) := by
  obtain ⟨g, hg, rfl, hs⟩ := hd
  have h := List.all_eq_true.1 (List.all_eq_true.1 all_results g hg) s hs
  unfold sameResult at h
  rw [he] at h
  simp only [Bool.or_eq_true, Bool.and_eq_true, beq_iff_eq] at h
  rcases h with h | ⟨⟨⟨h1, h2⟩, h3⟩, h4⟩
  · exact ⟨by rw [h], fun _ => h⟩
  · exact ⟨by rw [h3, h4], fun hn => absurd ⟨h1, h2⟩ hn⟩

example : ((group manual (lit "io")).find? fun s => s.fn == lit "read_file").bind Sig.result = some (lit "string") ∧
    (entry (lit "io") (lit "read_file")).bind Meta.ok = some (lit "string") := by decide +kernel

end Verif.Props

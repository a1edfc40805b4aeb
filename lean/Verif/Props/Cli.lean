import Verif.Model.Cli
import Verif.Props.Diag

/-!
# The command line (C167-C172)
-/

namespace Verif.Props
open Verif Verif.Str Verif.Diag Verif.Cli

/-! ## C167: arguments of the program -/

/-- **C167.** `gray file.gray …` runs the program of that file with the further arguments, whether or not they are set off by `--`. -/
def C167_statement : Prop :=
  ∀ (file : Str) (extra : List Str) (dash : Option Nat) (noColor : Bool) (argv : List Str), hasExt file = true → file.head? ≠ some 45 →
    (dash = none ∨ dash = some 1) → runArgs (file :: extra) dash [] noColor = some argv → action (parseArgs argv) = .exec file extra

/-- `gray prog.gray in.txt` compiles and runs `in.txt`. -/
theorem C167_witness : (runArgs [lit "prog.gray", lit "in.txt"] none [] false).map (fun argv => action (parseArgs argv)) =
    some (.exec (lit "in.txt") []) := by decide +kernel

/-- `gray prog.gray -- -v` runs the program without arguments, `gray prog.gray -- -n` does not run it, and with `--help` the compiler
shows its own help. -/
theorem C167_option_witness :
    (runArgs [lit "prog.gray", lit "-v"] (some 1) [] false).map (fun argv => action (parseArgs argv)) = some (.exec (lit "prog.gray") []) ∧
    (runArgs [lit "prog.gray", lit "-n"] (some 1) [] false).map (fun argv => action (parseArgs argv)) = some .refused ∧
    (runArgs [lit "prog.gray", lit "--help"] (some 1) [] false).map (fun argv => action (parseArgs argv)) = some .info := by decide +kernel

theorem C167_fails : ¬ C167_statement := by
  intro h
  have := h (lit "prog.gray") [lit "in.txt"] none false _ (by decide) (by decide) (.inl rfl) rfl
  exact absurd this (by decide +kernel)

namespace Cl

def consts : List Str := [lit "version", lit "--version", lit "--help", lit "-h", lit "-o", lit "-c", lit "-O0", lit "-O1", lit "-O2", lit "-O3", lit "-g",
  lit "-v", lit "--verbose", lit "--time", lit "--no-color", lit "--quiet", lit "-q", lit "check", lit "build", lit "run", lit "--fmt"]

theorem consts_ext : ∀ s ∈ consts, hasExt s = false := by decide +kernel

/-- A source file is taken as the input. -/
theorem parse_file {f : Str} (h : hasExt f = true) (h' : f.head? ≠ some 45) (n : Nat) (as : List Str) (c : Config) :
    parse (n + 1) (f :: as) c = parse n as { c with input := some f } := by
  have hne : ∀ s ∈ consts, f ≠ s := by
    intro s hs e
    have := consts_ext s hs
    rw [← e, h] at this
    exact absurd this (by decide)
  have k : ∀ s, s ∈ consts → f ≠ s := hne
  have o : ∀ s t, s ∈ consts → t ∈ consts → ¬ (f = s ∨ f = t) := fun s t hs ht h => h.elim (k s hs) (k t ht)
  have q : ∀ s (P : Prop), s ∈ consts → ¬ (f = s ∧ P) := fun s P hs h => k s hs h.1
  rw [parse]
  rw [if_neg (o _ _ (by decide) (by decide)), if_neg (o _ _ (by decide) (by decide)), if_neg (q _ _ (by decide)), if_neg (k _ (by decide)),
    if_neg (by
      rintro (h | h | h | h)
      · exact k _ (by decide) h
      · exact k _ (by decide) h
      · exact k _ (by decide) h
      · exact k _ (by decide) h),
    if_neg (k _ (by decide)), if_neg (o _ _ (by decide) (by decide)), if_neg (k _ (by decide)), if_neg (k _ (by decide)),
    if_neg (o _ _ (by decide) (by decide)), if_neg (q _ _ (by decide)), if_neg (q _ _ (by decide)), if_neg (q _ _ (by decide)),
    if_neg (k _ (by decide)), if_neg h']

theorem parse_run (n : Nat) (as : List Str) (c : Config) (hc : c.input = none) :
    parse (n + 1) (lit "run" :: as) c = parse n as { c with run := true } := by
  rw [parse]
  rw [if_neg (by decide), if_neg (by decide), if_neg (fun h => absurd h.1 (by decide)), if_neg (by decide), if_neg (by decide), if_neg (by decide),
    if_neg (by decide), if_neg (by decide), if_neg (by decide), if_neg (by decide), if_neg (fun h => absurd h.1 (by decide)),
    if_neg (fun h => absurd h.1 (by decide)), if_pos ⟨rfl, hc⟩]

theorem parse_nocolor (n : Nat) (as : List Str) (c : Config) :
    parse (n + 1) (lit "--no-color" :: as) c = parse n as { c with noColor := true } := by
  rw [parse]
  rw [if_neg (by decide), if_neg (by decide), if_neg (fun h => absurd h.1 (by decide)), if_neg (by decide), if_neg (by decide), if_neg (by decide),
    if_neg (by decide), if_neg (by decide), if_pos rfl]

theorem parse_quiet (n : Nat) (as : List Str) (c : Config) : parse (n + 1) (lit "--quiet" :: as) c =
    if as.head?.bind List.head? = some 87 then parse n as.tail { c with quietCodes := as.head? }
    else if as.head?.bind List.head? = some 69 then .refused
    else parse n as { c with quietAll := true } := by
  rw [parse]
  rw [if_neg (by decide), if_neg (by decide), if_neg (fun h => absurd h.1 (by decide)), if_neg (by decide), if_neg (by decide), if_neg (by decide),
    if_neg (by decide), if_neg (by decide), if_neg (by decide), if_pos (.inl rfl)]

theorem parse_nil {n : Nat} {c : Config} {f : Str} (h : c.input = some f) : parse n [] c = .go c := by
  cases n <;> (rw [parse, if_neg (by rw [h]; simp)])

/-- Arguments after `run file`, with the option for colours or not. -/
theorem parse_tail {f : Str} {c : Config} (h : c.input = some f) (n : Nat) (noColor : Bool) :
    parse (n + 1) (if noColor then [lit "--no-color"] else []) c = .go { c with noColor := c.noColor || noColor } := by
  cases noColor with
  | false =>
    rw [if_neg (by decide), parse_nil h]
    congr 1
    cases c; simp
  | true =>
    rw [if_pos rfl, parse_nocolor]
    refine (parse_nil (c := { c with noColor := true }) (f := f) h).trans ?_
    congr 1
    cases c; simp

theorem start {f : Str} (h : hasExt f = true) (h' : f.head? ≠ some 45) (n : Nat) (as : List Str) :
    parse (n + 2) (lit "run" :: f :: as) {} = parse n as { run := true, input := some f } := by
  rw [parse_run _ _ _ rfl, parse_file h h']

/-- `gray file.gray` with the flags for warnings and colours. -/
theorem parse_all {f q : Str} (h : hasExt f = true) (h' : f.head? ≠ some 45) (noColor : Bool) :
    parseArgs ([lit "run", f] ++ quietArgs q ++ (if noColor then [lit "--no-color"] else [])) =
      if q = [] then .go { run := true, input := some f, noColor := noColor }
      else if q = lit "all" then .go { run := true, input := some f, noColor := noColor, quietAll := true }
      else if q.head? = some 87 then .go { run := true, input := some f, noColor := noColor, quietCodes := some q }
      else if q.head? = some 69 then .refused
      else parse (1 + (if noColor then 2 else 1)) (q :: (if noColor then [lit "--no-color"] else [])) { run := true, input := some f, quietAll := true } := by
  unfold parseArgs quietArgs
  by_cases h0 : q = []
  · subst h0
    rw [if_neg (by decide), if_neg (by simp), if_pos rfl]
    simp only [List.append_nil]
    cases noColor with
    | false => exact (start h h' 0 []).trans (parse_nil rfl)
    | true => exact (start h h' 1 [lit "--no-color"]).trans (parse_tail rfl 0 true)
  · rw [if_neg h0]
    by_cases h1 : q = lit "all"
    · rw [if_pos h1, if_pos h1]
      cases noColor with
      | false =>
        refine (start h h' 1 [lit "--quiet"]).trans ?_
        rw [parse_quiet, if_neg (by decide), if_neg (by decide)]
        exact parse_nil rfl
      | true =>
        refine (start h h' 2 [lit "--quiet", lit "--no-color"]).trans ?_
        rw [parse_quiet, if_neg (by decide), if_neg (by decide)]
        exact parse_tail (f := f) rfl 0 true
    · rw [if_neg h1, if_pos h0, if_neg h1]
      have hlen : ([lit "run", f] ++ [lit "--quiet", q] ++ (if noColor then [lit "--no-color"] else [])).length = (2 + (if noColor then 1 else 0)) + 2 := by
        cases noColor <;> rfl
      rw [hlen]
      refine (start h h' _ (lit "--quiet" :: q :: (if noColor then [lit "--no-color"] else []))).trans ?_
      rw [show 2 + (if noColor then 1 else 0) = (1 + (if noColor then 1 else 0)) + 1 by omega, parse_quiet]
      show (if q.head? = some 87 then _ else if q.head? = some 69 then _ else _) = _
      by_cases h2 : q.head? = some 87
      · rw [if_pos h2, if_pos h2]
        rw [show 1 + (if noColor then 1 else 0) = (if noColor then 1 else 0) + 1 by omega]
        refine (parse_tail (f := f) rfl _ noColor).trans ?_
        simp
      · rw [if_neg h2, if_neg h2]
        by_cases h3 : q.head? = some 69
        · rw [if_pos h3, if_pos h3]
        · rw [if_neg h3, if_neg h3]
          cases noColor with
          | false => rfl
          | true => rfl

end Cl

/-- **C167 (partial).** Without further arguments the file is run, with or without `--`, colours, and `-q` with `all` or codes of
warnings. Missing: arguments for the program. -/
theorem C167_partial (file quiet : Str) (dash : Option Nat) (noColor : Bool) (argv : List Str) (hf : hasExt file = true) (hd : file.head? ≠ some 45)
    (hdash : dash = none ∨ dash = some 1) (hq : quiet = [] ∨ quiet = lit "all" ∨ quiet.head? = some 87)
    (ha : runArgs [file] dash quiet noColor = some argv) : action (parseArgs argv) = .exec file [] := by
  have : argv = [lit "run", file] ++ quietArgs quiet ++ (if noColor then [lit "--no-color"] else []) := by
    unfold runArgs at ha
    simp only [hf, Bool.true_eq_false, if_false] at ha
    rcases hdash with rfl | rfl
    · simpa using (Option.some.inj ha).symm
    · simpa using (Option.some.inj ha).symm
  rw [this, Cl.parse_all hf hd]
  by_cases h0 : quiet = []
  · rw [if_pos h0]; rfl
  · rw [if_neg h0]
    by_cases h1 : quiet = lit "all"
    · rw [if_pos h1]; rfl
    · rw [if_neg h1, if_pos ((hq.resolve_left h0).resolve_left h1)]; rfl

example : runArgs [lit "a.gray"] none (lit "all") true = some [lit "run", lit "a.gray", lit "--quiet", lit "--no-color"] := by decide +kernel

/-! ## C168: the option for warnings -/

/-- What `gray -q quiet file.gray` is to do. -/
def QuietRight (file quiet : Str) : Parsed → Prop
  | .info => False
  | .refused => quiet ≠ lit "all" ∧ BadPiece quiet
  | .go c =>
    c.input = some file ∧
    ((quietOf c = none ∧ quiet ≠ lit "all" ∧ BadPiece quiet) ∨
     (quiet = lit "all" ∧ ∃ codes, quietOf c = some (true, codes)) ∨
     (quiet ≠ lit "all" ∧ ¬ BadPiece quiet ∧ ∃ codes, quietOf c = some (false, codes) ∧ ∀ w, w ≠ [] → 44 ∉ w → (w ∈ codes ↔ Named quiet w)))

/-- **C168.** `-q all` hides all warnings, `-q` with a list hides those named in it, and anything else is refused; the file given is the one
that is compiled. -/
def C168_statement : Prop :=
  ∀ (file quiet : Str) (noColor : Bool) (argv : List Str), hasExt file = true → file.head? ≠ some 45 →
    runArgs [file] none quiet noColor = some argv → QuietRight file quiet (parseArgs argv)

/-- `gray -q w1001 prog.gray` hides all warnings and compiles the file `w1001`. -/
theorem C168_witness : (runArgs [lit "prog.gray"] none (lit "w1001") false).map parseArgs =
    some (.go { run := true, input := some (lit "w1001"), quietAll := true }) := by decide +kernel

theorem C168_fails : ¬ C168_statement := by
  intro h
  have h := h (lit "prog.gray") (lit "w1001") false _ (by decide) (by decide) rfl
  have e : parseArgs ([lit "run", lit "prog.gray"] ++ quietArgs (lit "w1001") ++ [] ++ []) =
    .go { run := true, input := some (lit "w1001"), quietAll := true } := by decide +kernel
  have h : QuietRight (lit "prog.gray") (lit "w1001") (parseArgs ([lit "run", lit "prog.gray"] ++ quietArgs (lit "w1001") ++ [] ++ [])) := h
  rw [e] at h
  exact absurd h.1 (by decide)

/-- **C168 (partial).** It holds without `-q`, for `all`, and for lists that start with `W` or `E`. Missing: other texts, which ought to
be refused. -/
theorem C168_partial (file quiet : Str) (noColor : Bool) (argv : List Str) (hf : hasExt file = true) (hd : file.head? ≠ some 45)
    (hq : quiet = [] ∨ quiet = lit "all" ∨ quiet.head? = some 87 ∨ quiet.head? = some 69)
    (ha : runArgs [file] none quiet noColor = some argv) : QuietRight file quiet (parseArgs argv) := by
  have : argv = [lit "run", file] ++ quietArgs quiet ++ (if noColor then [lit "--no-color"] else []) := by
    unfold runArgs at ha
    simp only [hf, Bool.true_eq_false, if_false] at ha
    simpa using (Option.some.inj ha).symm
  rw [this, Cl.parse_all hf hd]
  by_cases h0 : quiet = []
  · rw [if_pos h0]
    subst h0
    refine ⟨rfl, .inr (.inr ⟨by decide, ?_, [], rfl, ?_⟩)⟩
    · rintro ⟨a, x, b, e, -⟩
      exact absurd e (by simp)
    · intro w hw _
      refine ⟨fun h => absurd h List.not_mem_nil, ?_⟩
      intro h
      have := List.IsInfix.length_le h
      simp only [List.length_append, List.length_cons, List.length_nil] at this
      have : w = [] := List.length_eq_zero_iff.mp (by omega)
      exact absurd this hw
  · rw [if_neg h0]
    by_cases h1 : quiet = lit "all"
    · rw [if_pos h1]
      exact ⟨rfl, .inr (.inl ⟨h1, [], rfl⟩)⟩
    · rw [if_neg h1]
      by_cases h2 : quiet.head? = some 87
      · rw [if_pos h2]
        refine ⟨rfl, ?_⟩
        have hbad : quietCodes quiet = none ↔ BadPiece quiet := (C164_quiet quiet [] (fun d hd => absurd hd List.not_mem_nil)).1
        cases hc : quietCodes quiet with
        | none =>
          refine .inl ⟨?_, h1, hbad.mp hc⟩
          show (quietCodes quiet).map _ = none
          rw [hc]; rfl
        | some codes =>
          refine .inr (.inr ⟨h1, fun hb => by rw [hbad.mpr hb] at hc; exact absurd hc (by simp), codes, ?_, ?_⟩)
          · show (quietCodes quiet).map _ = some (false, codes)
            rw [hc]; rfl
          · have : codes = pieces [] quiet := by
              unfold quietCodes at hc
              simp only [] at hc
              by_cases h : (pieces [] quiet).all (fun p => p.head? == some 87) = true
              · rw [if_pos h] at hc; exact (Option.some.inj hc).symm
              · rw [if_neg h] at hc; exact absurd hc (by simp)
            intro w hw h44
            rw [this, Dg.mem_pieces_iff]
            exact ⟨fun h => h.2.2, fun h => ⟨hw, h44, h⟩⟩
      · rw [if_neg h2]
        have h3 : quiet.head? = some 69 := ((hq.resolve_left h0).resolve_left h1).resolve_left h2
        rw [if_pos h3]
        refine ⟨h1, ?_⟩
        cases quiet with
        | nil => exact absurd rfl h0
        | cons x b =>
          have hx : x = 69 := Option.some.inj h3
          exact ⟨[], x, b, rfl, by rw [hx]; decide, by rw [hx]; decide, .inl rfl⟩

example : (runArgs [lit "p.gray"] none (lit "W1001,W1002") false).map (fun a => match parseArgs a with | .go c => quietOf c | _ => none) =
    some (some (false, [lit "W1001", lit "W1002"])) := by decide +kernel

/-! ## C169: exit status -/

/-- **C169.** `gray file.gray` ends with the exit status of the program. -/
def C169_statement : Prop := ∀ status, exitStatus (.exited status) = status

/-- A program that ends with status 3 gives status 1. -/
theorem C169_witness : exitStatus (.exited 3) = 1 := by decide

theorem C169_fails : ¬ C169_statement := fun h => absurd (h 3) (by decide)

/-- **C169 (partial).** The status is 0 if and only if the program ended with status 0, and otherwise 1. Missing: other numbers. -/
theorem C169_partial (e : Ended) : (exitStatus e = 0 ↔ e = .exited 0) ∧ (exitStatus e ≠ 0 → exitStatus e = 1) := by
  cases e with
  | exited s =>
    by_cases h : s = 0
    · subst h; decide
    · have e : exitStatus (.exited s) = 1 := if_pos h
      rw [e]
      refine ⟨⟨fun h => absurd h (by decide), fun e => ?_⟩, fun _ => rfl⟩
      cases e; exact absurd rfl h
  | signaled s =>
    have e : exitStatus (.signaled s) = 1 := rfl
    rw [e]
    exact ⟨⟨fun h => absurd h (by decide), fun h => absurd h (by simp)⟩, fun _ => rfl⟩

/-! ## C170: the command for the C compiler -/

/-- A shell reading a command: between words, in a word, between single quotes; words and characters are collected backwards. -/
inductive Sh where
  | gap (ws : List Str)
  | word (ws : List Str) (acc : Str)
  | quote (ws : List Str) (acc : Str)
  | special
  deriving DecidableEq

/-- Characters without a meaning of their own for the shell. -/
def shPlain (c : Byte) : Bool :=
  (97 ≤ c && c ≤ 122) || (65 ≤ c && c ≤ 90) || (48 ≤ c && c ≤ 57) || [45, 95, 46, 47, 44, 61].contains c

def Sh.step : Sh → Byte → Sh
  | .gap ws, c => if c = 32 then .gap ws else if c = 39 then .quote ws [] else if shPlain c then .word ws [c] else .special
  | .word ws a, c => if c = 32 then .gap (a.reverse :: ws) else if c = 39 then .quote ws a else if shPlain c then .word ws (c :: a) else .special
  | .quote ws a, c => if c = 39 then .word ws a else .quote ws (c :: a)
  | .special, _ => .special

def Sh.run (s : Sh) (t : Str) : Sh := t.foldl Sh.step s

/-- The words of a command; `none` if it has characters with a special meaning or an open quote. -/
def Sh.words (t : Str) : Option (List Str) :=
  match Sh.run (.gap []) t with
  | .gap ws => some ws.reverse
  | .word ws a => some (a.reverse :: ws).reverse
  | _ => none

/-- Words of a constant text. -/
def Words (s : List String) : List Str := s.map lit

/-- The arguments the C compiler is to get. -/
def ccWords (opt : Str) (debug : Bool) (rt out c : Str) (lib : Option Str) : List Str :=
  Words ["cc", "-std=c11"] ++ (if debug then Words ["-g"] else []) ++ [opt] ++
  Words ["-Wall", "-Wno-unused-function", "-Wno-unused-variable", "-Wno-unused-but-set-variable", "-Wno-tautological-compare", "-Wno-infinite-recursion"] ++
  [lit "-isystem", rt ++ lit "/runtime", lit "-isystem", rt ++ lit "/stdlib", lit "-o", out, c] ++
  (match lib with
    | some l => [l]
    | none => (runtimeSrcs ++ stdlibSrcs).map fun s => rt ++ lit "/" ++ s) ++
  Words ["-lm", "-lpthread", "-Wl,-w"]

/-- **C170.** The command is refused, or the shell passes exactly the intended arguments on. -/
def C170_statement : Prop :=
  ∀ (opt : Str) (debug : Bool) (rt out : Str) (lib : Option Str) (cmd : Str), opt ∈ Words ["-O0", "-O1", "-O2", "-O3"] →
    compileCmd opt debug rt out (cFile out) lib = some cmd → Sh.words cmd = some (ccWords opt debug rt out (cFile out) lib)

/-- A quote in the path of the archive, which is not looked for. -/
theorem C170_witness : (compileCmd (lit "-O2") false (lit "/r") (lit "x") (cFile (lit "x")) (some (lit "/o'b/libgrayrt.a"))).map Sh.words = some none := by
  decide +kernel

theorem C170_fails : ¬ C170_statement := by
  intro h
  cases hc : compileCmd (lit "-O2") false (lit "/r") (lit "x") (cFile (lit "x")) (some (lit "/o'b/libgrayrt.a")) with
  | none =>
    have := C170_witness
    rw [hc] at this
    exact absurd this (by simp)
  | some cmd =>
    have h1 := h _ _ _ _ _ cmd (by decide) hc
    have h2 := C170_witness
    rw [hc] at h2
    have h2 : Sh.words cmd = none := Option.some.inj h2
    rw [h2] at h1
    exact absurd h1 (by simp)

namespace Cl

/-- Words read before. -/
def shift (vs : List Str) : Sh → Sh
  | .gap ws => .gap (ws ++ vs)
  | .word ws a => .word (ws ++ vs) a
  | .quote ws a => .quote (ws ++ vs) a
  | .special => .special

theorem step_shift (vs : List Str) (s : Sh) (c : Byte) : Sh.step (shift vs s) c = shift vs (Sh.step s c) := by
  cases s with
  | gap ws =>
    simp only [shift, Sh.step]
    by_cases h1 : c = 32
    · simp only [if_pos h1]
    · by_cases h2 : c = 39
      · simp only [if_neg h1, if_pos h2]
      · by_cases h3 : shPlain c = true
        · simp only [if_neg h1, if_neg h2, if_pos h3]
        · simp only [if_neg h1, if_neg h2, if_neg h3]
  | word ws a =>
    simp only [shift, Sh.step]
    by_cases h1 : c = 32
    · simp only [if_pos h1, List.cons_append]
    · by_cases h2 : c = 39
      · simp only [if_neg h1, if_pos h2]
      · by_cases h3 : shPlain c = true
        · simp only [if_neg h1, if_neg h2, if_pos h3]
        · simp only [if_neg h1, if_neg h2, if_neg h3]
  | quote ws a =>
    simp only [shift, Sh.step]
    by_cases h2 : c = 39
    · simp only [if_pos h2]
    · simp only [if_neg h2]
  | special => rfl

theorem run_shift (vs : List Str) : ∀ (t : Str) (s : Sh), Sh.run (shift vs s) t = shift vs (Sh.run s t)
  | [], _ => rfl
  | c :: t, s => by
    show Sh.run (Sh.step (shift vs s) c) t = _
    rw [step_shift]
    exact run_shift vs t _

theorem run_append (s : Sh) (a b : Str) : Sh.run s (a ++ b) = Sh.run (Sh.run s a) b := List.foldl_append

/-- A constant text of whole words. -/
theorem run_const {t : Str} {ws : List Str} (h : Sh.run (.gap []) t = .gap ws) (vs : List Str) : Sh.run (.gap vs) t = .gap (ws ++ vs) := by
  have := run_shift vs t (.gap [])
  rw [h] at this
  exact this

theorem run_quote : ∀ (p : Str) (ws : List Str) (a : Str), 39 ∉ p → Sh.run (.quote ws a) (p ++ [39]) = .word ws (p.reverse ++ a)
  | [], ws, a, _ => rfl
  | c :: p, ws, a, h => by
    have hc : c ≠ 39 := fun e => h (e ▸ List.mem_cons_self)
    show Sh.run (if c = 39 then _ else _) (p ++ [39]) = _
    rw [if_neg hc, run_quote p ws (c :: a) fun hm => h (List.mem_cons_of_mem _ hm)]
    simp

theorem run_quoted {p : Str} (h : 39 ∉ p) (ws : List Str) : Sh.run (.gap ws) (quoted p) = .word ws p.reverse := by
  have := run_quote p ws [] h
  rw [List.append_nil] at this
  exact this

theorem run_plain : ∀ (t : Str) (ws : List Str) (a : Str), (∀ c ∈ t, shPlain c = true ∧ c ≠ 32 ∧ c ≠ 39) →
    Sh.run (.word ws a) t = .word ws (t.reverse ++ a)
  | [], _, _, _ => rfl
  | c :: t, ws, a, h => by
    obtain ⟨h1, h2, h3⟩ := h c List.mem_cons_self
    show Sh.run (if c = 32 then _ else if c = 39 then _ else if shPlain c then _ else _) t = _
    rw [if_neg h2, if_neg h3, if_pos h1, run_plain t ws (c :: a) fun d hd => h d (List.mem_cons_of_mem _ hd)]
    simp

/-- A quoted path, a constant continuation, and a space. -/
theorem run_path {p t : Str} (h : 39 ∉ p) (ht : ∀ c ∈ t, shPlain c = true ∧ c ≠ 32 ∧ c ≠ 39) (ws : List Str) :
    Sh.run (.gap ws) (quoted p ++ t ++ [32]) = .gap ((p ++ t) :: ws) := by
  rw [run_append, run_append, run_quoted h, run_plain t _ _ ht]
  show Sh.gap ((t.reverse ++ p.reverse).reverse :: ws) = _
  rw [List.reverse_append, List.reverse_reverse, List.reverse_reverse]

theorem run_srcs {rt : Str} (h : 39 ∉ rt) : ∀ (l : List Str), (∀ s ∈ l, 39 ∉ s) → ∀ ws,
    Sh.run (.gap ws) (l.flatMap fun s => quoted (rt ++ [47] ++ s) ++ lit " ") = .gap ((l.map fun s => rt ++ lit "/" ++ s).reverse ++ ws)
  | [], _, _ => rfl
  | s :: l, hl, ws => by
    rw [List.flatMap_cons, run_append]
    have hq : 39 ∉ rt ++ [47] ++ s := by
      simp only [List.mem_append, List.mem_singleton, not_or]
      exact ⟨⟨h, by decide⟩, hl s List.mem_cons_self⟩
    have e := run_path hq (t := []) (fun c hc => absurd hc List.not_mem_nil) ws
    rw [List.append_nil, List.append_nil] at e
    show Sh.run (Sh.run (.gap ws) (quoted (rt ++ [47] ++ s) ++ [32])) _ = _
    rw [e, run_srcs h l fun s hs => hl s (List.mem_cons_of_mem _ hs)]
    show Sh.gap _ = Sh.gap _
    congr 1
    rw [List.map_cons, List.reverse_cons]
    exact (List.append_assoc _ [rt ++ lit "/" ++ s] ws).symm

theorem srcs_noquote : ∀ s ∈ runtimeSrcs ++ stdlibSrcs, 39 ∉ s := by decide +kernel

/-- The options, all of them constants. -/
theorem run_opts : ∀ opt ∈ Words ["-O0", "-O1", "-O2", "-O3"], ∀ debug : Bool,
    Sh.run (.gap []) (lit "cc -std=c11 " ++ (if debug then lit "-g " ++ opt else opt) ++
      lit " -Wall -Wno-unused-function -Wno-unused-variable -Wno-unused-but-set-variable " ++
      lit "-Wno-tautological-compare -Wno-infinite-recursion " ++ lit "-isystem ") =
    .gap (Words ["cc", "-std=c11"] ++ (if debug then Words ["-g"] else []) ++ [opt] ++
      Words ["-Wall", "-Wno-unused-function", "-Wno-unused-variable", "-Wno-unused-but-set-variable", "-Wno-tautological-compare", "-Wno-infinite-recursion"] ++
      [lit "-isystem"]).reverse := by
  decide +kernel

end Cl

/-- **C170 (partial).** It holds if there is no quote in the path of the archive. -/
theorem C170_partial (opt : Str) (debug : Bool) (rt out : Str) (lib : Option Str) (cmd : Str) (ho : opt ∈ Words ["-O0", "-O1", "-O2", "-O3"])
    (hl : ∀ l, lib = some l → 39 ∉ l) (hc : compileCmd opt debug rt out (cFile out) lib = some cmd) :
    Sh.words cmd = some (ccWords opt debug rt out (cFile out) lib) := by
  unfold compileCmd at hc
  by_cases h39 : 39 ∈ rt ∨ 39 ∈ out
  · rw [if_pos h39] at hc; exact absurd hc (by simp)
  · rw [if_neg h39] at hc
    simp only [] at hc
    by_cases hlen : (command opt debug rt out (cFile out) lib).length + 5 ≥ 8191
    · rw [if_pos hlen] at hc; exact absurd hc (by simp)
    · rw [if_neg hlen] at hc
      have hc := (Option.some.inj hc).symm
      subst hc
      have hrt : 39 ∉ rt := fun h => h39 (.inl h)
      have hout : 39 ∉ out := fun h => h39 (.inr h)
      have hcf : 39 ∉ cFile out := by
        intro h
        have h := List.mem_of_mem_take h
        rcases List.mem_append.mp h with h | h
        · rcases List.mem_append.mp h with h | h
          · revert h; decide
          · unfold baseName at h
            rw [List.mem_reverse] at h
            exact hout (List.mem_reverse.mp ((List.takeWhile_sublist _).subset h))
        · revert h; decide
      generalize cFile out = c at hcf ⊢
      have pl1 : ∀ x ∈ lit "/runtime", shPlain x = true ∧ x ≠ 32 ∧ x ≠ 39 := by decide
      have pl2 : ∀ x ∈ lit "/stdlib", shPlain x = true ∧ x ≠ 32 ∧ x ≠ 39 := by decide
      have pl0 : ∀ x ∈ ([] : Str), shPlain x = true ∧ x ≠ 32 ∧ x ≠ 39 := fun x hx => absurd hx List.not_mem_nil
      have key : ∀ (mid : Str) (mw : List Str), (∀ ws, Sh.run (.gap ws) mid = .gap (mw.reverse ++ ws)) →
          Sh.words (cmdHead opt debug rt ++ lit "-o " ++ quoted out ++ lit " " ++ quoted c ++ lit " " ++ mid ++ lit "-lm -lpthread -Wl,-w") =
          some (Words ["cc", "-std=c11"] ++ (if debug then Words ["-g"] else []) ++ [opt] ++
            Words ["-Wall", "-Wno-unused-function", "-Wno-unused-variable", "-Wno-unused-but-set-variable", "-Wno-tautological-compare", "-Wno-infinite-recursion"] ++
            [lit "-isystem", rt ++ lit "/runtime", lit "-isystem", rt ++ lit "/stdlib", lit "-o", out, c] ++ mw ++ Words ["-lm", "-lpthread", "-Wl,-w"]) := by
        intro mid mw hmid
        have e : cmdHead opt debug rt ++ lit "-o " ++ quoted out ++ lit " " ++ quoted c ++ lit " " ++ mid ++ lit "-lm -lpthread -Wl,-w" =
            (lit "cc -std=c11 " ++ (if debug then lit "-g " ++ opt else opt) ++
              lit " -Wall -Wno-unused-function -Wno-unused-variable -Wno-unused-but-set-variable " ++
              lit "-Wno-tautological-compare -Wno-infinite-recursion " ++ lit "-isystem ") ++
            (quoted rt ++ lit "/runtime" ++ [32]) ++ lit "-isystem " ++ (quoted rt ++ lit "/stdlib" ++ [32]) ++ lit "-o " ++
            (quoted out ++ [] ++ [32]) ++ (quoted c ++ [] ++ [32]) ++ mid ++ lit "-lm -lpthread -Wl,-w" := by
          have e1 : lit "/runtime -isystem " = lit "/runtime" ++ [32] ++ lit "-isystem " := by decide
          have e2 : lit "/stdlib " = lit "/stdlib" ++ [32] := by decide
          have e3 : lit " " = [32] := by decide
          unfold cmdHead
          rw [e1, e2, e3]
          simp only [List.append_assoc, List.append_nil]
        rw [e]
        unfold Sh.words
        simp only [Cl.run_append]
        have o := Cl.run_opts opt ho debug
        simp only [Cl.run_append] at o
        rw [o]
        have p1 := fun ws => Cl.run_path hrt pl1 ws
        have p2 := fun ws => Cl.run_path hrt pl2 ws
        have p3 := fun ws => Cl.run_path hout pl0 ws
        have p4 := fun ws => Cl.run_path hcf pl0 ws
        simp only [Cl.run_append] at p1 p2 p3 p4
        rw [p1, Cl.run_const (ws := [lit "-isystem"]) (by decide), p2, Cl.run_const (ws := [lit "-o"]) (by decide), p3, p4, hmid]
        have last : ∀ ws, Sh.run (.gap ws) (lit "-lm -lpthread -Wl,-w") = .word ([lit "-lpthread", lit "-lm"] ++ ws) (lit "-Wl,-w").reverse := by
          intro ws
          have := Cl.run_shift ws (lit "-lm -lpthread -Wl,-w") (.gap [])
          have h0 : Sh.run (.gap []) (lit "-lm -lpthread -Wl,-w") = .word [lit "-lpthread", lit "-lm"] (lit "-Wl,-w").reverse := by decide +kernel
          rw [h0] at this
          exact this
        rw [last]
        simp [Words]
      cases lib with
      | some l =>
        have := key (quoted l ++ lit " ") [l] (by
          intro ws
          have := Cl.run_path (hl l rfl) pl0 ws
          rw [List.append_nil, List.append_nil] at this
          exact this)
        unfold ccWords command
        simp only []
        rw [← this]
      | none =>
        have := key ((runtimeSrcs ++ stdlibSrcs).flatMap fun s => quoted (rt ++ [47] ++ s) ++ lit " ") ((runtimeSrcs ++ stdlibSrcs).map fun s => rt ++ lit "/" ++ s)
          (fun ws => Cl.run_srcs hrt _ Cl.srcs_noquote ws)
        unfold ccWords command
        simp only []
        rw [← this]

example : (compileCmd (lit "-O2") true (lit "/my dir") (lit "out $x") (cFile (lit "out $x")) (some (lit "/l.a"))).bind Sh.words =
    some (ccWords (lit "-O2") true (lit "/my dir") (lit "out $x") (lit "/tmp/gray_out $x.c") (some (lit "/l.a"))) := by decide +kernel

/-! ## C171: the intermediate file -/

/-- **C171.** Compilations to different output files use different intermediate files. -/
def C171_statement : Prop := ∀ o o' : Str, o ≠ o' → cFile o ≠ cFile o'

/-- Programs of the same name in two directories share `/tmp/gray_prog.c`. -/
theorem C171_witness : cFile (lit "a/prog") = lit "/tmp/gray_prog.c" ∧ cFile (lit "b/prog") = lit "/tmp/gray_prog.c" := by decide +kernel

theorem C171_fails : ¬ C171_statement := fun h => h (lit "a/prog") (lit "b/prog") (by decide) (C171_witness.1.trans C171_witness.2.symm)

/-- **C171 (partial).** It holds for different base names of up to 2000 bytes. Missing: equal names in different directories. -/
theorem C171_partial (o o' : Str) (h : baseName o ≠ baseName o') (h1 : (baseName o).length ≤ 2000) (h2 : (baseName o').length ≤ 2000) :
    cFile o ≠ cFile o' := by
  unfold cFile
  have l1 : (lit "/tmp/gray_").length = 10 := by decide
  have l2 : (lit ".c").length = 2 := by decide
  rw [List.take_of_length_le (by simp only [List.length_append]; omega), List.take_of_length_le (by simp only [List.length_append]; omega)]
  intro e
  have e := List.append_cancel_right e
  exact h (List.append_cancel_left e)

/-! ## C172: the output file -/

/-- **C172.** The default output file of a source file is named like it without `.gray`, so the source is not overwritten. -/
def C172_statement : Prop := ∀ input : Str, hasExt input = true → baseName input = outputName input ++ lit ".gray" ∧ outputName input ≠ []

/-- The output of the file `.gray` is the file itself; `grayc` also accepts files with any name, and writes the program to them. -/
theorem C172_witness : outputName (lit "src/.gray") = lit ".gray" ∧ outputName (lit "prog") = lit "prog" := by decide +kernel

theorem C172_fails : ¬ C172_statement := by
  intro h
  have := (h (lit ".gray") (by decide)).1
  exact absurd this (by decide)

/-- **C172 (partial).** It holds if the name has more than the extension. -/
theorem C172_partial (input : Str) (he : hasExt input = true) (hb : baseName input ≠ lit ".gray") :
    baseName input = outputName input ++ lit ".gray" ∧ outputName input ≠ [] := by
  obtain ⟨a, rfl⟩ := List.isSuffixOf_iff_suffix.mp he
  have hbase : baseName (a ++ lit ".gray") = baseName a ++ lit ".gray" := by
    unfold baseName
    rw [List.reverse_append]
    have : (lit ".gray").reverse = [121, 97, 114, 103, 46] := by decide
    rw [this]
    show (121 :: 97 :: 114 :: 103 :: 46 :: a.reverse.takeWhile (· != 47)).reverse = _
    simp only [List.reverse_cons, List.append_assoc]
    rfl
  have hne : baseName a ≠ [] := by
    intro e
    rw [hbase, e] at hb
    exact hb rfl
  have hl : (baseName a).length ≥ 1 := List.length_pos_iff.mpr hne
  have l5 : (lit ".gray").length = 5 := by decide
  have hout : outputName (a ++ lit ".gray") = baseName a := by
    unfold outputName
    simp only []
    rw [hbase, if_pos ⟨by rw [List.length_append]; omega, List.isSuffixOf_iff_suffix.mpr ⟨_, rfl⟩⟩, List.length_append, l5, Nat.add_sub_cancel,
      List.take_left]
  rw [hout, hbase]
  exact ⟨rfl, hne⟩

example : outputName (lit "dir/prog.gray") = lit "prog" := by decide +kernel

end Verif.Props

import Verif.Model.Console
import Verif.Model.Sqlite
import Verif.Props.Utf8
/-
`input`, `exit`, sleeps, printed characters, the `sqlite` module and the allocator of the compiler
(claims C299 to C306).
-/
namespace Verif.Props

open Verif.Str Verif.Console

namespace Cn

theorem fgets_line : ∀ (n : Nat) (l r : Str), 10 ∉ l → l.length < n → fgets n (l ++ 10 :: r) = (l ++ [10], r)
  | 0, _, _, _, h => absurd h (Nat.not_lt_zero _)
  | n + 1, [], r, _, _ => rfl
  | n + 1, c :: l, r, hl, h => by
    have hc : c ≠ 10 := fun e => hl (e ▸ List.mem_cons_self)
    have ih := fgets_line n l r (fun h => hl (List.mem_cons_of_mem _ h)) (Nat.lt_of_succ_lt_succ h)
    simp only [List.cons_append, fgets, if_neg hc, ih]

theorem fgets_long : ∀ (n : Nat) (l r : Str), 10 ∉ l → n ≤ l.length → fgets n (l ++ r) = (l.take n, l.drop n ++ r)
  | 0, _, _, _, _ => by simp only [fgets, List.take_zero, List.drop_zero]
  | n + 1, [], r, _, h => absurd h (Nat.not_succ_le_zero _)
  | n + 1, c :: l, r, hl, h => by
    have hc : c ≠ 10 := fun e => hl (e ▸ List.mem_cons_self)
    have ih := fgets_long n l r (fun h => hl (List.mem_cons_of_mem _ h)) (Nat.le_of_succ_le_succ h)
    simp only [List.cons_append, fgets, if_neg hc, ih, List.take_succ_cons, List.drop_succ_cons]

theorem fgets_end : ∀ (n : Nat) (l : Str), 10 ∉ l → l.length ≤ n → fgets n l = (l, [])
  | 0, [], _, _ => rfl
  | 0, _ :: _, _, h => absurd h (Nat.not_succ_le_zero _)
  | n + 1, [], _, _ => rfl
  | n + 1, c :: l, hl, h => by
    have hc : c ≠ 10 := fun e => hl (e ▸ List.mem_cons_self)
    have ih := fgets_end n l (fun h => hl (List.mem_cons_of_mem _ h)) (Nat.le_of_succ_le_succ h)
    simp only [fgets, if_neg hc, ih]

theorem cstr_id {s : Str} (h : 0 ∉ s) : cstr s = s := by
  induction s with
  | nil => rfl
  | cons c r ih =>
    have hc : (c != 0) = true := bne_iff_ne.2 fun e => h (e ▸ List.mem_cons_self)
    simp only [cstr, List.takeWhile_cons, hc, if_true]
    exact congrArg (c :: ·) (ih fun h' => h (List.mem_cons_of_mem _ h'))

theorem drain_line : ∀ (l r : Str), 10 ∉ l → drain (l ++ 10 :: r) = r
  | [], r, _ => by simp only [List.nil_append, drain, if_true]
  | c :: l, r, h => by
    have hc : c ≠ 10 := fun e => h (e ▸ List.mem_cons_self)
    simp only [List.cons_append, drain, if_neg hc, drain_line l r fun h' => h (List.mem_cons_of_mem _ h')]

theorem drain_end : ∀ (l : Str), 10 ∉ l → drain l = []
  | [], _ => rfl
  | c :: l, h => by
    have hc : c ≠ 10 := fun e => h (e ▸ List.mem_cons_self)
    simp only [drain, if_neg hc, drain_end l fun h' => h (List.mem_cons_of_mem _ h')]

/-- `input` in terms of what `fgets` has given. -/
theorem input_eq {s buf rest : Str} (h : fgets inputMax s = (buf, rest)) (hb : buf ≠ []) :
    input s = if (cstr buf).getLast? = some 10 then ((cstr buf).dropLast, rest)
      else if (cstr buf).length = inputMax then (cstr buf, drain rest) else (cstr buf, rest) := by
  unfold input
  rw [h]
  cases buf with
  | nil => exact absurd rfl hb
  | cons c r => rfl

theorem last_ne {l : Str} (h : 10 ∉ l) : l.getLast? ≠ some 10 := by
  intro e
  exact h (List.mem_of_getLast? e)

theorem zero_app {l : Str} (h0 : 0 ∉ l) : (0 : Byte) ∉ l ++ [10] := by
  intro h
  rcases List.mem_append.1 h with h | h
  · exact h0 h
  · exact absurd (List.mem_singleton.1 h) (by decide)

end Cn

open Cn

/-! ### C299: input -/

/-- C299: `input` gives the next line and goes to the one after it. -/
def C299_statement : Prop := ∀ l r : Str, 10 ∉ l → input (l ++ 10 :: r) = (l, r)

/-- C299 for lines without zero bytes: a line of at most 4095 bytes is returned as it is; of a longer one
the first 4095, and the next call begins at the next line all the same; the last line need not end. -/
theorem C299_partial (l r : Str) (h : 10 ∉ l) (h0 : 0 ∉ l) :
    input (l ++ 10 :: r) = (l.take 4095, r) ∧ input l = (l.take 4095, []) := by
  have ht : ∀ n, (10 : Byte) ∉ l.take n ∧ (0 : Byte) ∉ l.take n :=
    fun n => ⟨fun h' => h (List.mem_of_mem_take h'), fun h' => h0 (List.mem_of_mem_take h')⟩
  have hd : ∀ n, (10 : Byte) ∉ l.drop n := fun n h' => h (List.mem_of_mem_drop h')
  by_cases hl : l.length < 4095
  · have hx : l.take 4095 = l := List.take_of_length_le (Nat.le_of_lt hl)
    rw [hx]
    constructor
    · rw [input_eq (fgets_line 4095 l r h hl) (by intro e; cases l <;> cases e), cstr_id (zero_app h0),
        if_pos (by rw [List.getLast?_append]; rfl), List.dropLast_append_of_ne_nil (by intro e; cases e)]
      simp only [List.dropLast_singleton, List.append_nil]
    · cases l with
      | nil => rfl
      | cons c t =>
        rw [input_eq (fgets_end 4095 _ h (Nat.le_of_lt hl)) (by intro e; cases e), cstr_id h0,
          if_neg (last_ne h), if_neg (by unfold inputMax; omega)]
  · have hl' : 4095 ≤ l.length := Nat.le_of_not_lt hl
    have hlen : (l.take 4095).length = 4095 := by rw [List.length_take]; omega
    have hne : l.take 4095 ≠ [] := by intro e; rw [e] at hlen; cases hlen
    constructor
    · rw [input_eq (fgets_long 4095 l _ h hl') hne, cstr_id (ht 4095).2, if_neg (last_ne (ht 4095).1),
        if_pos (show (l.take 4095).length = inputMax from hlen), drain_line _ _ (hd 4095)]
    · have e := fgets_long 4095 l [] h hl'
      rw [List.append_nil, List.append_nil] at e
      rw [input_eq e hne, cstr_id (ht 4095).2, if_neg (last_ne (ht 4095).1), if_pos (show (l.take 4095).length = inputMax from hlen), drain_end _ (hd 4095)]

/-- Lines, each with its end. -/
def Cn.unlines : List Str → Str
  | [] => []
  | l :: r => l ++ 10 :: unlines r

/-- Reading as many lines as there are gives all of them. -/
theorem C299_lines_partial : ∀ (ls : List Str) (rest : Str), (∀ l ∈ ls, 10 ∉ l ∧ 0 ∉ l ∧ l.length ≤ 4095) →
    inputs ls.length (unlines ls ++ rest) = ls
  | [], _, _ => rfl
  | l :: ls, rest, h => by
    obtain ⟨h1, h2, h3⟩ := h l List.mem_cons_self
    have e := (C299_partial l (unlines ls ++ rest) h1 h2).1
    rw [List.take_of_length_le h3] at e
    have e' : unlines (l :: ls) ++ rest = l ++ 10 :: (unlines ls ++ rest) := by
      simp only [unlines, List.append_assoc, List.cons_append]
    rw [e', List.length_cons, inputs, e]
    exact congrArg (l :: ·) (C299_lines_partial ls rest fun x hx => h x (List.mem_cons_of_mem _ hx))

example : inputs 2 (unlines [[104, 105], []]) = [[104, 105], []] := by decide

/-- A line with a zero byte is cut there. A long line with a zero byte is cut, and the end of it is what the
next call returns. The end of the input looks like an empty line. -/
theorem C299_witness :
    input [65, 0, 66, 10, 67] = ([65], [67]) ∧
    (∀ r : Str, 10 ∉ r → input (0 :: List.replicate 4094 65 ++ r) = ([], r)) ∧
    input [] = ([], []) ∧ input [10] = ([], []) := by
  refine ⟨by decide, fun r hr => ?_, rfl, by decide⟩
  have h10 : (10 : Byte) ∉ (0 :: List.replicate 4094 65 : Str) := by
    intro h
    rcases List.mem_cons.1 h with h | h
    · exact absurd h (by decide)
    · exact absurd (List.mem_replicate.1 h).2 (by decide)
  have hlen : (0 :: List.replicate 4094 65 : Str).length = 4095 := by
    rw [List.length_cons, List.length_replicate]
  have e := fgets_long 4095 (0 :: List.replicate 4094 65) r h10 (Nat.le_of_eq hlen.symm)
  rw [List.take_of_length_le (Nat.le_of_eq hlen), List.drop_of_length_le (Nat.le_of_eq hlen), List.nil_append] at e
  rw [input_eq e (by intro h; cases h)]
  rfl

theorem C299_fails : ¬ C299_statement := by
  intro h
  have := h [65, 0, 66] [67] (by decide)
  rw [show ([65, 0, 66] ++ 10 :: [67] : Str) = [65, 0, 66, 10, 67] from rfl, C299_witness.1] at this
  exact absurd this (by decide)

/-! ### C300: exit -/

/-- C300: the status of `exit(n)` is `n`; in particular it is 0 only for 0. -/
def C300_statement : Prop := ∀ n : Int, -2 ^ 63 ≤ n → n < 2 ^ 63 → (exitStatus n = 0 ↔ n = 0)

theorem C300_witness : exitStatus 256 = 0 ∧ exitStatus (-1) = 255 ∧ exitStatus 4294967296 = 0 := by decide

theorem C300_fails : ¬ C300_statement := by
  intro h
  have := (h 256 (by decide) (by decide)).1 C300_witness.1
  exact absurd this (by decide)

/-- C300 for 0 to 255; for other numbers the status is the remainder. -/
theorem C300_partial (n : Int) : exitStatus n = n % 256 ∧ (0 ≤ n → n < 256 → exitStatus n = n) := by
  have h : exitStatus n = n % 256 := by
    unfold exitStatus
    rw [Int.bmod_def]
    split <;> omega
  exact ⟨h, fun h0 h1 => by rw [h]; omega⟩

/-! ### C301: sleep -/

/-- C301: a sleep lasts for the time given, and a negative one stops the program. -/
def C301_statement : Prop :=
  ∀ (u : SleepUnit) (d : Int), -2 ^ 63 ≤ d → d < 2 ^ 63 →
    sleep u d = if d < 0 then .panic "P0083" else .ok (d * u.size)

theorem C301_witness : sleep .s 4294967296 = .ok 0 ∧ sleep .ns (-1) = .ok 0 := by decide

theorem C301_fails : ¬ C301_statement := by
  intro h
  have := h .ns (-1) (by decide) (by decide)
  rw [C301_witness.2] at this
  exact absurd this (by decide)

/-- C301 for milliseconds, for seconds below 2^32, and for nanoseconds that are not negative; and the time
passed on is always one that `nanosleep` takes. -/
theorem C301_partial (u : SleepUnit) (d : Int) (hs : u = .s → d < 2 ^ 32) (hn : u = .ns → 0 ≤ d) :
    (sleep u d = if d < 0 then .panic "P0083" else .ok (d * u.size)) ∧
    (0 ≤ d → 0 ≤ tvNsec u d ∧ tvNsec u d < 1000000000) := by
  cases u with
  | s =>
    have hs := hs rfl
    refine ⟨?_, fun _ => ⟨by simp only [tvNsec]; omega, by simp only [tvNsec]; omega⟩⟩
    simp only [sleep, SleepUnit.size]
    split
    · rfl
    · split
      · rw [Int.emod_eq_of_lt (by omega) hs]
      · have : d = 0 := by omega
        subst this; rfl
  | ms =>
    refine ⟨?_, fun h => ?_⟩
    · simp only [sleep, SleepUnit.size]
      split
      · rfl
      · split
        · have h1 : d.tdiv 1000 = d / 1000 := Int.tdiv_eq_ediv_of_nonneg (by omega)
          have h2 : d.tmod 1000 = d % 1000 := Int.tmod_eq_emod_of_nonneg (by omega)
          rw [h1, h2]
          congr 1
          omega
        · have : d = 0 := by omega
          subst this; rfl
    · have h2 : d.tmod 1000 = d % 1000 := Int.tmod_eq_emod_of_nonneg (by omega)
      simp only [tvNsec, h2]
      omega
  | ns =>
    have hn := hn rfl
    refine ⟨?_, fun h => ?_⟩
    · simp only [sleep, SleepUnit.size]
      rw [if_neg (by omega : ¬ d < 0)]
      split
      · have h1 : d.tdiv 1000000000 = d / 1000000000 := Int.tdiv_eq_ediv_of_nonneg (by omega)
        have h2 : d.tmod 1000000000 = d % 1000000000 := Int.tmod_eq_emod_of_nonneg (by omega)
        rw [h1, h2]
        congr 1
        omega
      · have : d = 0 := by omega
        subst this; rfl
    · have h2 : d.tmod 1000000000 = d % 1000000000 := Int.tmod_eq_emod_of_nonneg (by omega)
      simp only [tvNsec, h2]
      omega

example : sleep .ms 1500 = .ok 1500000000 := by decide

/-! ### C302: printing characters -/

/-- C302: a character is printed as `string(c)` has it. -/
def C302_statement : Prop := ∀ c : Int, -2 ^ 31 ≤ c → c < 2 ^ 31 → fputUtf8 c = Utf8.charToUtf8 c

/-- Beyond the last code point nothing is printed, where the string has U+FFFD. -/
theorem C302_witness : fputUtf8 0x110000 = [] ∧ Utf8.charToUtf8 0x110000 = [0xEF, 0xBF, 0xBD] := by decide

theorem C302_fails : ¬ C302_statement := by
  intro h
  have := h 0x110000 (by decide) (by decide)
  rw [C302_witness.1, C302_witness.2] at this
  exact absurd this (by decide)

/-- C302 for all code points: characters are printed in UTF-8. -/
theorem C302_partial (c : Nat) : (c < 0x110000 → fputUtf8 c = Utf8.charToUtf8 c) ∧ (Scalar c → fputUtf8 c = utf8 c) := by
  have h : c < 0x110000 → fputUtf8 c = Utf8.charToUtf8 c := by
    intro hc
    unfold fputUtf8 Utf8.charToUtf8
    split
    · rfl
    · simp only
      split
      · rfl
      · split
        · rfl
        · rw [if_pos (by omega), if_pos (by omega)]
  exact ⟨h, fun hs => (h (by rcases hs with hs | hs <;> omega)).trans (C34_encode c hs)⟩

example : fputUtf8 0x20AC = [0xE2, 0x82, 0xAC] := by decide

/-! ### C303: errors of queries -/

namespace Cn
open Verif.Sqlite

/-- An engine for the examples: the statement is the number of rows before it fails (or not). -/
def engine0 : Engine Nat Nat :=
  { prepare := fun _ s => match s with
      | [] => some (none, [])
      | c :: r => if c = 33 then none else some (some c.toNat, r)
    columns := fun _ _ => [[97], [97]]
    run := fun σ p => (List.replicate (p % 2) [some [49], none], p < 64, σ + p) }

end Cn

open Verif.Sqlite

/-- C303: a query whose execution fails returns an error. -/
def C303_statement : Prop :=
  ∀ (e : Engine Nat Nat) (σ : Nat) (sql rest : Str) (p : Nat), e.prepare σ (cstr sql) = some (some p, rest) →
    (e.run σ p).2.1 = false → (queryResult e (some σ) sql).2.1 = true

theorem C303_witness : engine0.prepare 0 (cstr [65]) = some (some 65, []) ∧ (engine0.run 0 65).2.1 = false ∧
    queryResult engine0 (some 0) [65] = ([[([97], [])]], false, some 65) := by
  decide

theorem C303_fails : ¬ C303_statement := by
  intro h
  have := h engine0 0 [65] [] 65 C303_witness.1 C303_witness.2.1
  rw [C303_witness.2.2] at this
  cases this

/-- C303 for the errors that are found in preparing, and for closed databases. When there is no error, the
rows are those of one execution of the statement, which is executed only once, although it is prepared twice. -/
theorem C303_partial {S P : Type} (e : Engine S P) (db : Option S) (sql : Str) :
    ((db = none ∨ ∃ σ, db = some σ ∧ (e.prepare σ (cstr sql) = none ∨ ∃ r, e.prepare σ (cstr sql) = some (none, r))) →
      queryResult e db sql = ([], true, db)) ∧
    (∀ σ p r, db = some σ → e.prepare σ (cstr sql) = some (some p, r) →
      queryResult e db sql =
        ((e.run σ p).1.map fun r => rowOf (e.columns σ p) r [], false, some (e.run σ p).2.2)) := by
  constructor
  · rintro (rfl | ⟨σ, rfl, h | ⟨r, h⟩⟩)
    · rfl
    · simp only [queryResult, h]
    · simp only [queryResult, h]
  · rintro σ p r rfl h
    simp only [queryResult, query, h]

/-! ### C304: rows -/

/-- The value of a key. -/
def Cn.get (k : Str) (m : List (Str × Str)) : Option Str := (m.find? fun p => p.1 == k).map Prod.snd

/-- C304: a row has, for every column, the text of that column. -/
def C304_statement : Prop :=
  ∀ (cs : List Str) (xs : List (Option Str)) (i : Nat) (c t : Str), cs[i]? = some c → xs[i]? = some (some t) →
    get c (rowOf cs xs []) = some t

/-- It fails for two columns of the same name (the last one counts) and for a text with a zero byte; and NULL
looks like the empty text. -/
theorem C304_witness :
    rowOf [[97], [97]] [some [49], some [50]] [] = [([97], [50])] ∧
    rowOf [[97]] [some [49, 0, 50]] [] = [([97], [49])] ∧
    rowOf [[97]] [none] [] = rowOf [[97]] [some []] [] := by
  decide

theorem C304_fails : ¬ C304_statement := by
  intro h
  have := h [[97], [97]] [some [49], some [50]] 0 [97] [49] rfl rfl
  rw [C304_witness.1] at this
  exact absurd this (by decide)

namespace Cn

theorem get_put_same (k v : Str) : ∀ m, get k (Sqlite.put k v m) = some v
  | [] => by simp only [Sqlite.put, get, List.find?_cons, beq_self_eq_true, Option.map_some]
  | (k', v') :: r => by
    unfold Sqlite.put
    split
    · simp only [get, List.find?_cons, beq_self_eq_true, Option.map_some]
    · rename_i h
      have : get k ((k', v') :: Sqlite.put k v r) = get k (Sqlite.put k v r) := by
        simp only [get, List.find?_cons, beq_eq_false_iff_ne.2 h]
      rw [this, get_put_same k v r]

theorem get_put_other {k k' : Str} (v : Str) (h : k' ≠ k) : ∀ m, get k' (Sqlite.put k v m) = get k' m
  | [] => by
    have e : (k == k') = false := beq_eq_false_iff_ne.2 (Ne.symm h)
    simp only [Sqlite.put, get, List.find?_cons, e, List.find?_nil]
  | (a, b) :: r => by
    unfold Sqlite.put
    split
    · rename_i ha
      subst ha
      have e : (a == k') = false := beq_eq_false_iff_ne.2 (Ne.symm h)
      simp only [get, List.find?_cons, e]
    · have ih := get_put_other v h r
      simp only [get] at ih
      simp only [get, List.find?_cons]
      cases a == k' with
      | true => rfl
      | false => exact ih

theorem get_row_other {k : Str} : ∀ (cs : List Str) (xs : List (Option Str)) (m : List (Str × Str)),
    k ∉ cs.map cstr → get k (rowOf cs xs m) = get k m
  | [], xs, m, _ => by cases xs <;> rfl
  | c :: cs, [], m, _ => rfl
  | c :: cs, x :: xs, m, h => by
    have h1 : k ≠ cstr c := fun e => h (by rw [List.map_cons, e]; exact List.mem_cons_self)
    have h2 : k ∉ cs.map cstr := fun h' => h (by rw [List.map_cons]; exact List.mem_cons_of_mem _ h')
    rw [rowOf, get_row_other cs xs _ h2, get_put_other _ h1]

end Cn

/-- C304 for columns of different names: the row has their texts up to the first zero byte, and the
empty text for NULL. -/
theorem C304_partial : ∀ (cs : List Str) (xs : List (Option Str)) (m : List (Str × Str)) (i : Nat) (c : Str)
    (x : Option Str), (cs.map cstr).Nodup → cs[i]? = some c → xs[i]? = some x →
      get (cstr c) (rowOf cs xs m) = some (value x)
  | [], _, _, i, c, _, _, hc, _ => by cases hc
  | _ :: _, [], _, i, _, _, _, _, hx => by cases hx
  | c' :: cs, x' :: xs, m, 0, c, x, hn, hc, hx => by
    cases hc; cases hx
    rw [rowOf, get_row_other cs xs _ (List.nodup_cons.1 hn).1, get_put_same]
  | c' :: cs, x' :: xs, m, i + 1, c, x, hn, hc, hx => by
    rw [rowOf]
    exact C304_partial cs xs _ i c x (List.nodup_cons.1 hn).2 hc hx

namespace Cn

theorem put_new (k v : Str) : ∀ m : List (Str × Str), k ∉ m.map Prod.fst → Sqlite.put k v m = m ++ [(k, v)]
  | [], _ => rfl
  | (a, b) :: r, h => by
    have h1 : a ≠ k := fun e => h (by rw [← e]; exact List.mem_cons_self)
    have h2 : k ∉ r.map Prod.fst := fun h' => h (List.mem_cons_of_mem _ h')
    rw [Sqlite.put, if_neg h1, put_new k v r h2]; rfl

theorem row_new : ∀ (cs : List Str) (xs : List (Option Str)) (m : List (Str × Str)),
    (m.map Prod.fst ++ cs.map cstr).Nodup → rowOf cs xs m = m ++ (cs.map cstr).zip (xs.map value)
  | [], xs, m, _ => by cases xs <;> exact (List.append_nil m).symm
  | _ :: _, [], m, _ => (List.append_nil m).symm
  | c :: cs, x :: xs, m, h => by
    have hk : cstr c ∉ m.map Prod.fst := fun h' =>
      (List.nodup_append.1 h).2.2 _ h' _ (by rw [List.map_cons]; exact List.mem_cons_self) rfl
    rw [rowOf, put_new _ _ _ hk, row_new cs xs]
    · rw [List.append_assoc]; rfl
    · rw [List.map_append, List.append_assoc]; exact h

end Cn

/-- The row of columns of different names is the list of the columns with their texts. -/
theorem C304_row_partial (cs : List Str) (xs : List (Option Str)) (h : (cs.map cstr).Nodup) :
    rowOf cs xs [] = (cs.map cstr).zip (xs.map value) := by
  rw [row_new cs xs [] h]; rfl

example : get [98] (rowOf [[97], [98]] [some [49], some [50]] []) = some [50] := by decide

/-! ### C305: the statements of a text -/

/-- C305: `query` executes the statements of the text as `exec` does. -/
def C305_statement : Prop :=
  ∀ (e : Engine Nat Nat) (σ : Nat) (sql : Str), (queryResult e (some σ) sql).2.1 = false →
    (queryResult e (some σ) sql).2.2 = (exec e (some σ) sql).2

/-- It executes the first one only, without an error. -/
theorem C305_witness : queryResult engine0 (some 0) [2, 4] = ([], false, some 2) ∧
    exec engine0 (some 0) [2, 4] = (true, some 6) := by
  decide

theorem C305_fails : ¬ C305_statement := by
  intro h
  have := h engine0 0 [2, 4] (by rw [C305_witness.1])
  rw [C305_witness.1, C305_witness.2] at this
  cases this

/-- C305 if nothing comes after the first statement. -/
theorem C305_partial {S P : Type} (e : Engine S P) (he : ∀ σ, e.prepare σ [] = some (none, [])) (σ : S) (sql : Str)
    (p : P) (hsql : cstr sql ≠ []) (h : e.prepare σ (cstr sql) = some (some p, [])) :
    (queryResult e (some σ) sql).2.2 = (exec e (some σ) sql).2 ∧
    (exec e (some σ) sql).1 = (e.run σ p).2.1 := by
  have hq : (queryResult e (some σ) sql).2.2 = some (e.run σ p).2.2 := by simp only [queryResult, query, h]
  obtain ⟨n, hn⟩ : ∃ n, (cstr sql).length.succ = n + 2 := by
    cases hs : cstr sql with
    | nil => exact absurd hs hsql
    | cons c r => exact ⟨r.length, by rw [List.length_cons]⟩
  have hx : execAll e (n + 2) σ (cstr sql) = ((e.run σ p).2.1, (e.run σ p).2.2) := by
    simp only [execAll, h, he]
    cases (e.run σ p).2.1 <;> rfl
  rw [hq]
  simp only [exec, hn, hx]
  exact ⟨trivial, trivial⟩

example : exec engine0 (some 0) [65] = (false, some 65) := by decide

/-! ### C306: the allocator of the compiler -/

namespace Cn

/-- The bytes of the span lie in a block of the arena. -/
def Inside (a : Arena) (s : Span) : Prop := ∃ n, a.blocks[s.block]? = some n ∧ s.off + s.len ≤ n

/-- The spans share no byte. -/
def Apart (s t : Span) : Prop := s.block ≠ t.block ∨ s.off + s.len ≤ t.off ∨ t.off + t.len ≤ s.off

/-- The span lies in the part of the arena that is used. -/
def Before (a : Arena) (s : Span) : Prop :=
  Inside a s ∧ (s.block + 1 = a.blocks.length → s.off + s.len ≤ a.used)

structure Ok (a : Arena) : Prop where
  nonempty : a.blocks ≠ []
  used : a.used ≤ a.size
  small : a.size < 2 ^ 63
  aligned : a.used % 8 = 0

theorem alignUp_spec {n : Nat} (h : n < 2 ^ 63) : n ≤ alignUp n ∧ alignUp n < n + 8 ∧ alignUp n % 8 = 0 := by
  unfold alignUp
  omega

theorem last_of {a : Arena} (h : a.blocks ≠ []) : a.blocks[a.blocks.length - 1]? = some a.size := by
  unfold Arena.size
  rw [← List.getLast?_eq_getElem?]
  cases he : a.blocks.getLast? with
  | none => exact absurd (List.getLast?_eq_none_iff.1 he) h
  | some n => rfl

theorem alloc_ok {a : Arena} (ha : Ok a) (hd : a.dflt < 2 ^ 62) {n : Nat} (hn : n < 2 ^ 62) :
    Ok (arenaAlloc a n).1 ∧ (arenaAlloc a n).1.dflt = a.dflt ∧ Before (arenaAlloc a n).1 (arenaAlloc a n).2 ∧
    (arenaAlloc a n).2.len = n ∧ (arenaAlloc a n).2.off % 8 = 0 ∧
    (∀ s, Before a s → Before (arenaAlloc a n).1 s ∧ Apart s (arenaAlloc a n).2) := by
  obtain ⟨h1, h2, h3⟩ := alignUp_spec (by omega : n < 2 ^ 63)
  have hu := ha.used
  have hs := ha.small
  have hlen : 0 < a.blocks.length := List.length_pos_iff.2 ha.nonempty
  unfold arenaAlloc
  simp only
  split
  · -- a new block
    have hsize : (Arena.mk (a.blocks ++ [if alignUp n > a.dflt then alignUp n else a.dflt])
        (alignUp n) a.dflt).size = if alignUp n > a.dflt then alignUp n else a.dflt := by
      simp only [Arena.size, List.getLast?_append, List.getLast?_singleton, Option.some_or, Option.getD_some]
    refine ⟨⟨by simp, ?_, ?_, h3⟩, rfl, ⟨⟨_, List.getElem?_concat_length, ?_⟩, ?_⟩, rfl, by simp, ?_⟩
    · rw [hsize]; dsimp only; split <;> omega
    · rw [hsize]; split <;> omega
    · dsimp only; split <;> omega
    · intro _; dsimp only; omega
    · intro s hb
      obtain ⟨⟨m, hm, hle⟩, _⟩ := hb
      have hlt : s.block < a.blocks.length := (List.getElem?_eq_some_iff.1 hm).1
      refine ⟨⟨⟨m, ?_, hle⟩, ?_⟩, Or.inl ?_⟩
      · dsimp only; rw [List.getElem?_append_left hlt]; exact hm
      · intro e; dsimp only at e; rw [List.length_append, List.length_singleton] at e; omega
      · dsimp only; omega
  · rename_i hfit
    have hfit : a.used + alignUp n ≤ a.size := by omega
    have hl := last_of ha.nonempty
    have hsz : (Arena.mk a.blocks (a.used + alignUp n) a.dflt).size = a.size := rfl
    refine ⟨⟨ha.nonempty, by rw [hsz]; exact hfit, by rw [hsz]; exact hs, ?_⟩, rfl, ⟨⟨a.size, hl, ?_⟩, ?_⟩, rfl, ha.aligned, ?_⟩
    · dsimp only; have := ha.aligned; omega
    · dsimp only; omega
    · intro _; dsimp only; omega
    · intro s hb
      obtain ⟨hin, hlast⟩ := hb
      refine ⟨⟨hin, fun e => ?_⟩, ?_⟩
      · have := hlast e; dsimp only; omega
      · by_cases e : s.block + 1 = a.blocks.length
        · exact Or.inr (Or.inl (hlast e))
        · refine Or.inl ?_; dsimp only; omega

theorem allocs_ok : ∀ (ns : List Nat) (a : Arena), Ok a → a.dflt < 2 ^ 62 → (∀ n ∈ ns, n < 2 ^ 62) →
    (∀ s, Before a s → Before (arenaAllocs a ns).1 s ∧ ∀ t ∈ (arenaAllocs a ns).2, Apart s t) ∧
    (∀ t ∈ (arenaAllocs a ns).2, Before (arenaAllocs a ns).1 t ∧ t.off % 8 = 0) ∧
    (arenaAllocs a ns).2.map (·.len) = ns ∧ (arenaAllocs a ns).2.Pairwise Apart
  | [], a, ha, hd, hn => ⟨fun s hb => ⟨hb, fun t h => (by cases h)⟩, fun t h => (by cases h), rfl, .nil⟩
  | n :: ns, a, ha, hd, hn => by
    obtain ⟨h1, h2, h3, h4, h5, h6⟩ := alloc_ok ha hd (hn n List.mem_cons_self)
    obtain ⟨i1, i2, i3, i4⟩ := allocs_ok ns _ h1 (by rw [h2]; exact hd) fun m hm => hn m (List.mem_cons_of_mem _ hm)
    simp only [arenaAllocs]
    refine ⟨fun s hb => ?_, fun t ht => ?_, ?_, ?_⟩
    · obtain ⟨j1, j2⟩ := h6 s hb
      obtain ⟨k1, k2⟩ := i1 s j1
      refine ⟨k1, fun t ht => ?_⟩
      rcases List.mem_cons.1 ht with rfl | ht
      · exact j2
      · exact k2 t ht
    · rcases List.mem_cons.1 ht with rfl | ht
      · exact ⟨(i1 _ h3).1, h5⟩
      · exact i2 t ht
    · rw [List.map_cons, h4, i3]
    · exact List.pairwise_cons.2 ⟨(i1 _ h3).2, i4⟩

end Cn

/-- C306: from a new arena on, all allocations have the sizes asked for, lie within their blocks at multiples of
8, and share no byte. (Sizes are below 2^62; they come from `strlen` and `sizeof`.) -/
theorem C306_arena (n0 : Nat) (h0 : n0 < 2 ^ 62) (ns : List Nat) (hn : ∀ n ∈ ns, n < 2 ^ 62) :
    (arenaAllocs (arenaCreate n0) ns).2.map (·.len) = ns ∧
    (∀ t ∈ (arenaAllocs (arenaCreate n0) ns).2, Inside (arenaAllocs (arenaCreate n0) ns).1 t ∧ t.off % 8 = 0) ∧
    (arenaAllocs (arenaCreate n0) ns).2.Pairwise Apart := by
  have hok : Ok (arenaCreate n0) := ⟨(by intro h; cases h), Nat.zero_le _,
    (by show n0 < 2 ^ 63; omega), rfl⟩
  obtain ⟨_, h2, h3, h4⟩ := allocs_ok ns _ hok h0 hn
  exact ⟨h3, fun t ht => ⟨(h2 t ht).1.1, (h2 t ht).2⟩, h4⟩

example : (arenaAllocs (arenaCreate 16) [3, 8, 1, 40, 5]).2 =
    [⟨0, 0, 3⟩, ⟨0, 8, 8⟩, ⟨1, 0, 1⟩, ⟨2, 0, 40⟩, ⟨3, 0, 5⟩] := by decide

end Verif.Props

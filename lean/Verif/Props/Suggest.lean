import Verif.Model.Suggest

/-!
# C151, C152: suggestions for misspelt names
-/

namespace Verif.Props
open Verif.Suggest
open Verif.Str (Str Byte)

/-! ## Specification: single edits -/

/-- `b` comes from `a` by inserting, deleting or replacing one character. -/
inductive OneEdit : Str → Str → Prop where
  | ins (u v : Str) (c : Byte) : OneEdit (u ++ v) (u ++ c :: v)
  | del (u v : Str) (c : Byte) : OneEdit (u ++ c :: v) (u ++ v)
  | sub (u v : Str) (c d : Byte) : OneEdit (u ++ c :: v) (u ++ d :: v)

/-- `b` comes from `a` by `n` single edits, one after the other. -/
inductive Edits : Nat → Str → Str → Prop where
  | none (a : Str) : Edits 0 a a
  | step {n : Nat} {a b c : Str} : OneEdit a b → Edits n b c → Edits (n + 1) a c

/-- `n` is the least number of single edits that lead from `a` to `b`. -/
def EditDistance (a b : Str) (n : Nat) : Prop := Edits n a b ∧ ∀ m, Edits m a b → n ≤ m

namespace Sg

/-! ## The recursive distance -/

def min3 (x y z : Nat) : Nat := min x (min y z)

def lev : Str → Str → Nat
  | [], b => b.length
  | x :: a, [] => a.length + 1
  | x :: a, y :: b => min3 (lev a (y :: b) + 1) (lev (x :: a) b + 1) (lev a b + if x = y then 0 else 1)
termination_by a b => a.length + b.length

theorem lev_nil (b : Str) : lev [] b = b.length := by unfold lev; rfl
theorem lev_nil_right (a : Str) : lev a [] = a.length := by
  cases a <;> unfold lev <;> rfl
theorem lev_cons (x y : Byte) (a b : Str) : lev (x :: a) (y :: b)
    = min3 (lev a (y :: b) + 1) (lev (x :: a) b + 1) (lev a b + if x = y then 0 else 1) := by
  rw [lev]

theorem lev_del (x : Byte) (a b : Str) : lev (x :: a) b ≤ lev a b + 1 := by
  cases b with
  | nil => rw [lev_nil_right, lev_nil_right]; simp
  | cons y b => rw [lev_cons]; unfold min3; omega

theorem lev_ins (y : Byte) (a b : Str) : lev a (y :: b) ≤ lev a b + 1 := by
  cases a with
  | nil => rw [lev_nil, lev_nil]; simp
  | cons x a => rw [lev_cons]; unfold min3; omega

theorem lev_sub (x y : Byte) (a b : Str) : lev (x :: a) (y :: b) ≤ lev a b + 1 := by
  rw [lev_cons]; unfold min3; split <;> omega

def Near (a a' : Str) : Prop := ∀ b, lev a b ≤ lev a' b + 1

theorem near_cons {a a' : Str} (h : Near a a') (x : Byte) : Near (x :: a) (x :: a') := by
  intro b
  induction b with
  | nil => have := h []; rw [lev_nil_right, lev_nil_right] at *; simp; omega
  | cons y b ih =>
    have h1 := h (y :: b); have h2 := h b
    rw [lev_cons, lev_cons]; unfold min3; omega

theorem near_pre {a a' : Str} (h : Near a a') (u : Str) : Near (u ++ a) (u ++ a') := by
  induction u with
  | nil => exact h
  | cons x u ih => exact near_cons ih x

theorem near_del (c : Byte) (v : Str) : Near (c :: v) v := fun b => lev_del c v b

theorem near_ins (c : Byte) (v : Str) : Near v (c :: v) := by
  intro b
  induction b with
  | nil => rw [lev_nil_right, lev_nil_right]; simp; omega
  | cons y b ih =>
    have := lev_ins y v b
    rw [lev_cons]; unfold min3; omega

theorem near_sub (c d : Byte) (v : Str) : Near (c :: v) (d :: v) := by
  intro b
  induction b with
  | nil => rw [lev_nil_right, lev_nil_right]; simp
  | cons y b ih =>
    have h1 := lev_del c v (y :: b)
    have h2 := lev_sub c y v b
    have h3 := lev_ins y (c :: v) b
    rw [lev_cons d]; unfold min3; omega

theorem near_edit {a a' : Str} (h : OneEdit a a') : Near a a' := by
  cases h with
  | ins u v c => exact near_pre (near_ins c v) u
  | del u v c => exact near_pre (near_del c v) u
  | sub u v c d => exact near_pre (near_sub c d v) u

theorem lev_self (a : Str) : lev a a = 0 := by
  induction a with
  | nil => rw [lev_nil]; rfl
  | cons x a ih => rw [lev_cons, if_pos rfl]; unfold min3; omega

theorem lev_le {n : Nat} {a b : Str} (h : Edits n a b) : lev a b ≤ n := by
  induction h with
  | none a => rw [lev_self]; exact Nat.le_refl _
  | step h1 _ ih => have := near_edit h1 ‹_›; omega

/-! ## Edits for the recursive distance -/

theorem one_pre {a b : Str} (h : OneEdit a b) (x : Byte) : OneEdit (x :: a) (x :: b) := by
  cases h with
  | ins u v c => exact OneEdit.ins (x :: u) v c
  | del u v c => exact OneEdit.del (x :: u) v c
  | sub u v c d => exact OneEdit.sub (x :: u) v c d

theorem edits_pre {n : Nat} {a b : Str} (h : Edits n a b) (x : Byte) : Edits n (x :: a) (x :: b) := by
  induction h with
  | none a => exact .none _
  | step h1 _ ih => exact .step (one_pre h1 x) ih

theorem edits_del (a : Str) : Edits a.length a [] := by
  induction a with
  | nil => exact .none _
  | cons x a ih => exact .step (OneEdit.del [] a x) ih

theorem edits_ins (b : Str) : Edits b.length [] b := by
  suffices h : ∀ b a : Str, Edits b.length a (b ++ a) by simpa using h b []
  intro b
  induction b with
  | nil => intro a; exact .none _
  | cons x b ih =>
    intro a
    have h1 : Edits b.length (x :: a) (x :: (b ++ a)) := edits_pre (ih a) x
    exact .step (OneEdit.ins [] a x) h1

theorem edits_lev (a b : Str) : Edits (lev a b) a b := by
  induction a, b using lev.induct with
  | case1 b => rw [lev_nil]; exact edits_ins b
  | case2 x a => rw [lev_nil_right]; exact edits_del (x :: a)
  | case3 x a y b ih1 ih2 ih3 =>
    rw [lev_cons]
    have h1 : Edits (lev a (y :: b) + 1) (x :: a) (y :: b) := .step (OneEdit.del [] a x) ih1
    have h2 : Edits (lev (x :: a) b + 1) (x :: a) (y :: b) := .step (OneEdit.ins [] (x :: a) y) (edits_pre ih2 y)
    have h3 : Edits (lev a b + if x = y then 0 else 1) (x :: a) (y :: b) := by
      by_cases h : x = y
      · rw [if_pos h, h]; exact edits_pre ih3 y
      · rw [if_neg h]; exact .step (OneEdit.sub [] a x y) (edits_pre ih3 y)
    unfold min3
    rcases Nat.le_total (lev a (y :: b) + 1) (min (lev (x :: a) b + 1) (lev a b + if x = y then 0 else 1)) with h | h
    · rw [Nat.min_eq_left h]; exact h1
    · rw [Nat.min_eq_right h]
      rcases Nat.le_total (lev (x :: a) b + 1) (lev a b + if x = y then 0 else 1) with h | h
      · rw [Nat.min_eq_left h]; exact h2
      · rw [Nat.min_eq_right h]; exact h3

theorem distance_lev (a b : Str) : EditDistance a b (lev a b) := ⟨edits_lev a b, fun _ h => lev_le h⟩

theorem one_rev {a b : Str} (h : OneEdit a b) : OneEdit a.reverse b.reverse := by
  cases h with
  | ins u v c => simpa using OneEdit.ins v.reverse u.reverse c
  | del u v c => simpa using OneEdit.del v.reverse u.reverse c
  | sub u v c d => simpa using OneEdit.sub v.reverse u.reverse c d

theorem edits_rev {n : Nat} {a b : Str} (h : Edits n a b) : Edits n a.reverse b.reverse := by
  induction h with
  | none a => exact .none _
  | step h1 _ ih => exact .step (one_rev h1) ih

theorem lev_rev (a b : Str) : lev a.reverse b.reverse = lev a b := by
  apply Nat.le_antisymm
  · exact lev_le (edits_rev (edits_lev a b))
  · have := lev_le (edits_rev (edits_lev a.reverse b.reverse))
    simpa using this

/-! ## The rows -/

theorem min_chain (x y z : Nat) :
    (if x < y then (if x < z then x else z) else (if y < z then y else z)) = min3 x y z := by
  unfold min3; split <;> split <;> omega

/-- Row for the reversed prefix `p` of `a`: entries up to index `b.length`. `q` is the reversed part of `b` already passed. -/
def Rowed (p q : Str) : Str → Nat → List Nat → Prop
  | [], j, row => row[j]? = some (lev p q)
  | d :: b, j, row => row[j]? = some (lev p q) ∧ Rowed p (d :: q) b (j + 1) row

theorem Rowed.head {p q b : Str} {j : Nat} {row : List Nat} (h : Rowed p q b j row) : row[j]? = some (lev p q) := by
  cases b with
  | nil => exact h
  | cons d b => exact h.1

theorem Rowed.set_lt {p : Str} (b : Str) : ∀ {q : Str} {j k v : Nat} {row : List Nat}, k < j → Rowed p q b j row →
    Rowed p q b j (row.set k v) := by
  induction b with
  | nil => intro q j k v row hk h; show (row.set k v)[j]? = _; rw [List.getElem?_set_ne (by omega)]; exact h
  | cons d b ih =>
    intro q j k v row hk h
    refine ⟨?_, ih (by omega) h.2⟩
    rw [List.getElem?_set_ne (by omega)]; exact h.1

theorem inner_keep (c : Byte) (b : Str) : ∀ (j prev : Nat) (row row' : List Nat), inner c b j prev row = some row' →
    row'.length = row.length ∧ ∀ k, k < j → row'[k]? = row[k]? := by
  induction b with
  | nil => intro j prev row row' h; cases h; exact ⟨rfl, fun _ _ => rfl⟩
  | cons d b ih =>
    intro j prev row row' h
    simp only [inner, Option.bind_eq_bind, Option.bind_eq_some_iff] at h
    obtain ⟨rj, _, rl, _, r1, h1, h2⟩ := h
    unfold put at h1
    split at h1
    · cases h1
      have ⟨e1, e2⟩ := ih _ _ _ _ h2
      refine ⟨by rw [e1, List.length_set], fun k hk => ?_⟩
      rw [e2 k (by omega), List.getElem?_set_ne (by omega)]
    · cases h1

/-- The inner loop turns the rest of the old row (for `p`) into the rest of the new row (for `c :: p`). -/
theorem inner_row (c : Byte) (p : Str) (b : Str) : ∀ (q : Str) (j : Nat) (row : List Nat),
    row[j]? = some (lev (c :: p) q) →
    (∀ d b', b = d :: b' → Rowed p (d :: q) b' (j + 1) row) →
    ∃ row', inner c b (j + 1) (lev p q) row = some row' ∧ Rowed (c :: p) q b j row' := by
  induction b with
  | nil => intro q j row h _; exact ⟨row, rfl, h⟩
  | cons d b ih =>
    intro q j row h hr
    have hR := hr d b rfl
    have hj := hR.head
    have hlt : j + 1 < row.length := by
      rcases Nat.lt_or_ge (j + 1) row.length with h | h
      · exact h
      · rw [List.getElem?_eq_none h] at hj; cases hj
    have hv : lev (c :: p) (d :: q)
        = min3 (lev p (d :: q) + 1) (lev (c :: p) q + 1) (lev p q + if c = d then 0 else 1) := lev_cons ..
    have hrow1 : (row.set (j + 1) (lev (c :: p) (d :: q)))[j + 1]? = some (lev (c :: p) (d :: q)) := by
      rw [List.getElem?_set_self hlt]
    obtain ⟨row', h1, h2⟩ := ih (d :: q) (j + 1) (row.set (j + 1) (lev (c :: p) (d :: q))) hrow1 (by
      intro d' b' hb; subst hb
      exact Rowed.set_lt b' (by omega) hR.2)
    refine ⟨row', ?_, ?_, h2⟩
    · simp only [inner, Option.bind_eq_bind, hj, Option.bind_some, Nat.add_sub_cancel, h, min_chain, put, if_pos hlt, ← hv]
      exact h1
    · rw [(inner_keep c b _ _ _ _ h1).2 j (by omega), List.getElem?_set_ne (by omega)]
      exact h

theorem outer_row (b a : Str) : ∀ (p : Str) (i : Nat) (row : List Nat), i = p.length + 1 → Rowed p [] b 0 row →
    ∃ row', outer b a i row = some row' ∧ Rowed (a.reverse ++ p) [] b 0 row' := by
  induction a with
  | nil => intro p i row _ h; exact ⟨row, rfl, h⟩
  | cons c a ih =>
    intro p i row hi h
    have h0 := h.head
    have hlt : 0 < row.length := by
      rcases Nat.lt_or_ge 0 row.length with h | h
      · exact h
      · rw [List.getElem?_eq_none h] at h0; cases h0
    have hi' : i = lev (c :: p) [] := by rw [lev_nil_right, hi]; rfl
    have hset : (row.set 0 i)[0]? = some (lev (c :: p) []) := by
      rw [List.getElem?_set_self hlt, hi']
    obtain ⟨row1, h1, h2⟩ := inner_row c p b [] 0 (row.set 0 i) hset (by
      intro d b' hb; subst hb
      exact Rowed.set_lt b' (by omega) h.2)
    obtain ⟨row2, h3, h4⟩ := ih (c :: p) (i + 1) row1 (by rw [hi]; rfl) h2
    refine ⟨row2, ?_, ?_⟩
    · simp only [outer, Option.bind_eq_bind, h0, Option.bind_some, put, if_pos hlt]
      rw [Nat.zero_add] at h1
      rw [h1]
      exact h3
    · simpa using h4

theorem fill_row (n : Nat) : ∀ (j : Nat) (row : List Nat), j + n ≤ row.length → ∃ row', fill n j row = some row' ∧
    row'.length = row.length ∧ (∀ k, k < j → row'[k]? = row[k]?) ∧ ∀ k, j ≤ k → k < j + n → row'[k]? = some k := by
  induction n with
  | zero => intro j row _; exact ⟨row, rfl, rfl, fun _ _ => rfl, fun k h1 h2 => by omega⟩
  | succ n ih =>
    intro j row h
    obtain ⟨row', h1, h2, h3, h4⟩ := ih (j + 1) (row.set j j) (by rw [List.length_set]; omega)
    refine ⟨row', ?_, by rw [h2, List.length_set], ?_, ?_⟩
    · simp only [fill, put, if_pos (show j < row.length by omega), Option.bind_some]; exact h1
    · intro k hk; rw [h3 k (by omega), List.getElem?_set_ne (by omega)]
    · intro k hk1 hk2
      rcases Nat.eq_or_lt_of_le hk1 with h | h
      · subst h; rw [h3 j (by omega), List.getElem?_set_self (by omega)]
      · exact h4 k (by omega) (by omega)

theorem rowed_init (b : Str) : ∀ (q : Str) (row : List Nat), (∀ k, q.length ≤ k → k ≤ q.length + b.length → row[k]? = some k) →
    Rowed [] q b q.length row := by
  induction b with
  | nil => intro q row h; show row[q.length]? = _; rw [h _ (by omega) (by simp), lev_nil]
  | cons d b ih =>
    intro q row h
    refine ⟨by rw [h _ (by omega) (by simp), lev_nil], ?_⟩
    exact ih (d :: q) row (fun k h1 h2 => h k (by simp at h1; omega) (by simp at h2 ⊢; omega))

theorem rowed_last (p : Str) (b : Str) : ∀ (q : Str) (j : Nat) (row : List Nat), Rowed p q b j row →
    row[j + b.length]? = some (lev p (b.reverse ++ q)) := by
  induction b with
  | nil => intro q j row h; exact h
  | cons d b ih =>
    intro q j row h
    have := ih (d :: q) (j + 1) row h.2
    simp only [List.length_cons, List.reverse_cons, List.append_assoc, List.singleton_append]
    rw [← this]; congr 1; omega

theorem rowCap_ge (n : Nat) : n + 1 ≤ rowCap n := by
  unfold rowCap; split <;> omega

theorem levenshtein_eq (a b : Str) : levenshtein a b = some (lev a b) := by
  unfold levenshtein
  by_cases ha : a.length = 0
  · rw [if_pos ha, List.length_eq_zero_iff.mp ha, lev_nil]
  rw [if_neg ha]
  by_cases hb : b.length = 0
  · rw [if_pos hb, List.length_eq_zero_iff.mp hb, lev_nil_right]
  rw [if_neg hb]
  obtain ⟨row, h1, _, _, h4⟩ := fill_row (b.length + 1) 0 (List.replicate (rowCap b.length) 0)
    (by rw [List.length_replicate]; have := rowCap_ge b.length; omega)
  have hr : Rowed [] [] b 0 row := rowed_init b [] row (fun k _ h => h4 k (by omega) (by simp at h; omega))
  obtain ⟨row', h5, h6⟩ := outer_row b a [] 1 row rfl hr
  simp only [Option.bind_eq_bind, h1, Option.bind_some, h5]
  have := rowed_last _ b [] 0 row' h6
  rw [Nat.zero_add] at this
  rw [this]
  simp [lev_rev]

end Sg

/-- **C151.** For any two names, of any length, the number computed by the compiler is the least number of single-character
insertions, deletions and replacements that lead from one to the other, and the computation stays inside its row. -/
theorem C151_distance (a b : Str) : ∃ n, levenshtein a b = some n ∧ EditDistance a b n :=
  ⟨_, Sg.levenshtein_eq a b, Sg.distance_lev a b⟩

/-- "kitten" and "sitting" are three edits apart. -/
example : levenshtein [107, 105, 116, 116, 101, 110] [115, 105, 116, 116, 105, 110, 103] = some 3 := by decide +kernel

/-- The edit distance is unique, so C151 determines the result. -/
theorem C151_unique (a b : Str) (n : Nat) (h : EditDistance a b n) : levenshtein a b = some n := by
  obtain ⟨m, h1, h2⟩ := C151_distance a b
  rw [h1, Nat.le_antisymm (h2.2 n h.1) (h.2 m h2.1)]

/-- All names in sight, in the order in which the scopes and the functions list them. -/
def visible (scopes : List (List Str)) (funcs : List Str) : List Str := scopes.flatten ++ funcs

namespace Sg

/-- `best` is the first of the names passed with the least distance among those with distance 1 or 2 (`none`: there is none). -/
def Best (name : Str) (seen : List Str) : Option Str × Nat → Prop
  | (none, d) => d = 3 ∧ ∀ x ∈ seen, lev name x = 0 ∨ 3 ≤ lev name x
  | (some s, d) => lev name s = d ∧ 0 < d ∧ d < 3 ∧ (∃ u v, seen = u ++ s :: v ∧ ∀ x ∈ u, lev name x = 0 ∨ d < lev name x) ∧
      ∀ x ∈ seen, lev name x = 0 ∨ d ≤ lev name x

theorem scan_append (name : Str) (xs : List Str) : ∀ (ys : List Str) (s : Option Str × Nat),
    scan name (xs ++ ys) s = (scan name xs s).bind fun s => scan name ys s := by
  induction xs with
  | nil => intro ys s; rfl
  | cons x xs ih =>
    intro ys s
    obtain ⟨best, d⟩ := s
    show (levenshtein name x).bind _ = ((levenshtein name x).bind _).bind _
    rw [levenshtein_eq, Option.bind_some, Option.bind_some]
    split
    · exact ih ys _
    · exact ih ys _

theorem scanScopes_eq (name : Str) (scs : List (List Str)) : ∀ s, scanScopes name scs s = scan name scs.flatten s := by
  induction scs with
  | nil => intro s; rfl
  | cons sc scs ih =>
    intro s
    rw [List.flatten_cons, scan_append]
    show (scan name sc s).bind _ = _
    congr 1; funext s; exact ih s

theorem scan_best (name : Str) (xs : List Str) : ∀ (seen : List Str) (s : Option Str × Nat), Best name seen s →
    ∃ s', scan name xs s = some s' ∧ Best name (seen ++ xs) s' := by
  induction xs with
  | nil => intro seen s h; exact ⟨s, rfl, by simpa using h⟩
  | cons x xs ih =>
    intro seen s h
    have hstep : ∃ s1, Best name (seen ++ [x]) s1 ∧ scan name (x :: xs) s = scan name xs s1 := by
      obtain ⟨best, d⟩ := s
      by_cases hd : 0 < lev name x ∧ lev name x < d
      · refine ⟨(some x, lev name x), ?_, ?_⟩
        · have hlt3 : lev name x < 3 := by
            cases best with
            | none => have := h.1; omega
            | some s => have := h.2.2.1; omega
          have hall : ∀ y ∈ seen, lev name y = 0 ∨ lev name x < lev name y := by
            intro y hy
            cases best with
            | none => rcases h.2 y hy with h | h <;> omega
            | some s => rcases h.2.2.2.2 y hy with h | h <;> omega
          refine ⟨rfl, hd.1, hlt3, ⟨seen, [], rfl, hall⟩, ?_⟩
          intro y hy
          rcases List.mem_append.mp hy with hy | hy
          · rcases hall y hy with h | h <;> omega
          · rw [List.mem_singleton.mp hy]; omega
        · show (levenshtein name x).bind _ = _
          rw [levenshtein_eq, Option.bind_some, if_pos hd]
      · refine ⟨(best, d), ?_, ?_⟩
        · cases best with
          | none =>
            refine ⟨h.1, fun y hy => ?_⟩
            rcases List.mem_append.mp hy with hy | hy
            · exact h.2 y hy
            · rw [List.mem_singleton.mp hy]; have := h.1; omega
          | some s =>
            obtain ⟨h1, h2, h3, ⟨u, v, h4, h5⟩, h6⟩ := h
            refine ⟨h1, h2, h3, ⟨u, v ++ [x], by rw [h4]; simp, h5⟩, fun y hy => ?_⟩
            rcases List.mem_append.mp hy with hy | hy
            · exact h6 y hy
            · rw [List.mem_singleton.mp hy]; omega
        · show (levenshtein name x).bind _ = _
          rw [levenshtein_eq, Option.bind_some, if_neg hd]
    obtain ⟨s1, h1, h2⟩ := hstep
    obtain ⟨s', h3, h4⟩ := ih (seen ++ [x]) s1 h1
    exact ⟨s', by rw [h2, h3], by simpa using h4⟩

theorem dist_iff (a b : Str) (n : Nat) : EditDistance a b n ↔ lev a b = n := by
  constructor
  · intro h; exact Nat.le_antisymm ((distance_lev a b).2 n h.1) (h.2 _ (distance_lev a b).1)
  · intro h; rw [← h]; exact distance_lev a b

end Sg

/-- What a good suggestion for `name` is: a name in sight one or two edits away, no other name in sight (except `name` itself) being
nearer, and none listed before it being as near. -/
def GoodSuggestion (vis : List Str) (name s : Str) : Prop :=
  ∃ u v n, vis = u ++ s :: v ∧ EditDistance name s n ∧ (n = 1 ∨ n = 2) ∧
    (∀ x ∈ vis, x ≠ name → ∀ m, EditDistance name x m → n ≤ m) ∧
    (∀ x ∈ u, x ≠ name → ∀ m, EditDistance name x m → n < m)

namespace Sg

theorem lev_zero {a b : Str} (h : lev a b = 0) : b = a := by
  have := edits_lev a b
  rw [h] at this
  cases this; rfl

theorem suggest_best (scopes : List (List Str)) (funcs : List Str) (name : Str) :
    ∃ r, suggest scopes funcs name = some r.1 ∧ Best name (visible scopes funcs) r := by
  obtain ⟨s', h1, h2⟩ := scan_best name (scopes.flatten ++ funcs) [] (none, 3) ⟨rfl, fun _ h => by cases h⟩
  refine ⟨s', ?_, by simpa [visible] using h2⟩
  rw [scan_append] at h1
  unfold suggest
  rw [scanScopes_eq]
  cases hs : scan name scopes.flatten (none, 3) with
  | none => rw [hs] at h1; cases h1
  | some s => rw [hs] at h1; rw [Option.bind_some] at h1 ⊢; rw [h1]; rfl

end Sg

/-- **C152.** The suggestion for an unknown name is a name in sight one or two edits away, the nearest, and the first of the nearest
in the order of the scopes (innermost first) and functions. -/
theorem C152_suggestion (scopes : List (List Str)) (funcs : List Str) (name s : Str)
    (h : suggest scopes funcs name = some (some s)) : GoodSuggestion (visible scopes funcs) name s := by
  obtain ⟨⟨b, d⟩, h1, h2⟩ := Sg.suggest_best scopes funcs name
  rw [h] at h1; cases h1
  obtain ⟨h3, h4, h5, ⟨u, v, h6, h7⟩, h8⟩ := h2
  refine ⟨u, v, d, h6, (Sg.dist_iff _ _ _).mpr h3, by omega, ?_, ?_⟩
  · intro x hx hne m hm
    rw [Sg.dist_iff] at hm
    rcases h8 x hx with h | h
    · exact absurd (Sg.lev_zero h) hne
    · omega
  · intro x hx hne m hm
    rw [Sg.dist_iff] at hm
    rcases h7 x hx with h | h
    · exact absurd (Sg.lev_zero h) hne
    · omega

/-- There is no suggestion exactly when no name in sight is one or two edits away. -/
theorem C152_none (scopes : List (List Str)) (funcs : List Str) (name : Str) :
    suggest scopes funcs name = some none ↔
      ∀ x ∈ visible scopes funcs, ¬ EditDistance name x 1 ∧ ¬ EditDistance name x 2 := by
  obtain ⟨⟨b, d⟩, h1, h2⟩ := Sg.suggest_best scopes funcs name
  rw [h1]
  cases b with
  | none =>
    refine ⟨fun _ x hx => ?_, fun _ => rfl⟩
    rw [Sg.dist_iff, Sg.dist_iff]
    rcases h2.2 x hx with h | h <;> omega
  | some s =>
    obtain ⟨h3, h4, h5, ⟨u, v, h6, _⟩, _⟩ := h2
    constructor
    · intro h; cases h
    · intro h
      have hs : s ∈ visible scopes funcs := by rw [h6]; simp
      have := h s hs
      rw [Sg.dist_iff, Sg.dist_iff] at this
      omega

/-- The search always ends without leaving the row. -/
theorem C152_total (scopes : List (List Str)) (funcs : List Str) (name : Str) : ∃ r, suggest scopes funcs name = some r :=
  let ⟨r, h, _⟩ := Sg.suggest_best scopes funcs name
  ⟨r.1, h⟩

/-- `cuont`: `count` (two edits) in the inner scope is beaten by the function `cunt` (one edit); `court` comes too late. -/
example : suggest [[[99, 111, 117, 110, 116]], [[99, 111, 117, 114, 116]]] [[99, 117, 110, 116]] [99, 117, 111, 110, 116]
    = some (some [99, 117, 110, 116]) := by decide +kernel
example : suggest [[[120]]] [] [97, 98, 99] = some none := by decide +kernel

end Verif.Props

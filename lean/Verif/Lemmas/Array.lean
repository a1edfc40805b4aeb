import Verif.Model.Array

/-
How each array operation acts on the list an array stands for.
-/
namespace Verif.Arr

variable {α : Type}

/-- `a` stands for the list `xs`: the first cells of the block hold exactly `xs`, the block is at
least that long and its size is an `int32_t`. -/
def Rep (a : GrayArray α) (xs : List α) : Prop :=
  ∃ rest, a.cells = xs.map some ++ rest ∧ a.len = xs.length ∧ a.cells.length ≤ int32Max

theorem toI32_of_range {i : Int} (h : -2147483648 ≤ i) (h' : i < 2147483648) : toI32 i = i := by
  unfold toI32; omega

theorem toI32_range (i : Int) : -2147483648 ≤ toI32 i ∧ toI32 i < 2147483648 := by
  unfold toI32; omega

theorem Rep.len_eq {a : GrayArray α} {xs : List α} (h : Rep a xs) : a.len = xs.length := by
  obtain ⟨_, _, h2, _⟩ := h; exact h2

theorem Rep.le {a : GrayArray α} {xs : List α} (h : Rep a xs) : xs.length ≤ int32Max := by
  obtain ⟨r, h1, _, h3⟩ := h
  rw [h1] at h3; simp at h3; omega

/-- The list an array stands for is unique. -/
theorem Rep.unique {a : GrayArray α} {xs ys : List α} (h : Rep a xs) (h' : Rep a ys) : xs = ys := by
  obtain ⟨r, h1, h2, _⟩ := h
  obtain ⟨r', h1', h2', _⟩ := h'
  have hl : (xs.map some).length = (ys.map some).length := by simp; omega
  have := (List.append_inj (h1.symm.trans h1') hl).1
  exact (List.map_inj_right (fun _ _ h => by simpa using h)).1 this

theorem cellAt_rep {a : GrayArray α} {xs : List α} (h : Rep a xs) {i : Nat} (hi : i < xs.length) :
    cellAt a i = .ok xs[i] := by
  obtain ⟨r, h1, h2, h3⟩ := h
  unfold cellAt
  have : a.cells[i]? = some (some xs[i]) := by
    rw [h1, List.getElem?_append_left (by simpa using hi)]
    simp [hi]
  rw [this]

theorem elemAt_rep {esz : Nat} {a : GrayArray α} {xs : List α} (h : Rep a xs)
    (hb : xs.length * esz ≤ int32Max) {i : Nat} (hi : i < xs.length) :
    elemAt esz a i = .ok xs[i] := by
  have : i * esz ≤ xs.length * esz := Nat.mul_le_mul_right _ (by omega)
  rw [elemAt, if_neg (by omega), cellAt_rep h hi]

theorem rep_new (n : Nat) (hn : n ≤ int32Max) : Rep (new n : GrayArray α) [] := by
  refine ⟨_, rfl, rfl, ?_⟩
  have hM : int32Max = 2147483647 := rfl
  have hm : minCap = 4 := rfl
  simp only [new, List.length_replicate]
  split <;> omega

theorem rep_fromList (xs : List α) (hn : xs.length ≤ int32Max) : Rep (fromList xs) xs := by
  have hM : int32Max = 2147483647 := rfl
  have hm : minCap = 4 := rfl
  by_cases h : 0 < xs.length
  · refine ⟨[], ?_, rfl, ?_⟩ <;> simp [fromList, h, hn]
  · have : xs = [] := by cases xs with | nil => rfl | cons => simp at h
    subst this
    refine ⟨List.replicate minCap none, ?_, rfl, ?_⟩ <;> simp [fromList]; omega

theorem copyCells_rep {a : GrayArray α} {xs : List α} (h : Rep a xs) {c : Nat}
    (hc : xs.length ≤ c) :
    copyCells a.cells a.len c = .ok (xs.map some ++ List.replicate (c - xs.length) none) := by
  obtain ⟨r, h1, h2, h3⟩ := h
  unfold copyCells
  have hle : a.len ≤ a.cells.length := by rw [h1, h2]; simp
  rw [if_pos ⟨hle, by omega⟩, h2, h1]
  have : (xs.map some ++ r).take xs.length = xs.map some := by
    rw [List.take_append_of_le_length (by simp)]
    apply List.take_of_length_le; simp
  rw [this]

/-- Growing keeps the list and leaves room for one more, unless the doubling overflows. -/
theorem grow_rep {a : GrayArray α} {xs : List α} (h : Rep a xs) (hx : xs.length < 1073741824) :
    ∃ b, grow a = .ok b ∧ Rep b xs ∧ b.len < b.cap ∧ b.iterating = a.iterating := by
  have hM : int32Max = 2147483647 := rfl
  have hm : minCap = 4 := rfl
  have hlen := h.len_eq
  have hcap : xs.length ≤ a.cap := by
    obtain ⟨r, h1, h2, h3⟩ := h
    show _ ≤ a.cells.length
    rw [h1]; simp
  have mk : ∀ c, xs.length < c → c ≤ int32Max →
      Rep ({ a with cells := xs.map some ++ List.replicate (c - xs.length) none } :
        GrayArray α) xs ∧ a.len < c := by
    intro c hc hc'
    refine ⟨⟨_, rfl, hlen, ?_⟩, by omega⟩
    simp; omega
  rw [grow]
  by_cases h1 : a.len < a.cap
  · exact ⟨a, by rw [if_pos h1], h, h1, rfl⟩
  · rw [if_neg h1]
    by_cases h2 : a.cap < minCap
    · rw [if_pos h2, copyCells_rep h (by omega)]
      obtain ⟨m1, m2⟩ := mk minCap (by omega) (by omega)
      refine ⟨_, rfl, m1, ?_, rfl⟩
      show a.len < (xs.map some ++ List.replicate (minCap - xs.length) none).length
      simp; omega
    · rw [if_neg h2]
      have h3 : ¬ int32Max < a.cap * 2 := by omega
      rw [if_neg h3, copyCells_rep h (by omega)]
      obtain ⟨m1, m2⟩ := mk (a.cap * 2) (by omega) (by omega)
      refine ⟨_, rfl, m1, ?_, rfl⟩
      show a.len < (xs.map some ++ List.replicate (a.cap * 2 - xs.length) none).length
      simp; omega

theorem push_rep {a : GrayArray α} {xs : List α} (h : Rep a xs) (hx : xs.length < 1073741824)
    (hi : a.iterating = 0) (x : α) :
    ∃ b, push a x = .ok b ∧ Rep b (xs ++ [x]) ∧ b.iterating = 0 := by
  obtain ⟨b, hb, ⟨r, h1, h2, h3⟩, hlt, hit⟩ := grow_rep h hx
  rw [push, if_neg (by omega), hb]
  have hlt' : b.len < b.cells.length := hlt
  simp only [Outcome.bind_ok, writeCell, if_pos hlt']
  refine ⟨_, rfl, ⟨r.tail, ?_, by simp [h2], by simpa using h3⟩, by simp [hit, hi]⟩
  show b.cells.set b.len (some x) = _
  rw [h1, h2]
  have hr : r ≠ [] := by
    intro hr; subst hr; rw [h1] at hlt'; simp at hlt'; omega
  obtain ⟨y, r', rfl⟩ := List.exists_cons_of_ne_nil hr
  rw [List.set_append_right _ _ (by simp)]
  simp

theorem set_rep {a : GrayArray α} {xs : List α} (h : Rep a xs) (hi : a.iterating = 0)
    (i : Nat) (hlt : i < xs.length) (j : Int) (hj : toI32 j = i) (x : α) :
    ∃ b, set a j x = .ok b ∧ Rep b (xs.set i x) ∧ b.iterating = 0 := by
  obtain ⟨r, h1, h2, h3⟩ := h
  have hlt' : i < a.cells.length := by rw [h1]; simp; omega
  rw [set, if_neg (by omega), if_neg (by omega), hj]
  simp only [Int.toNat_natCast, writeCell, if_pos hlt', Outcome.bind_ok]
  refine ⟨_, rfl, ⟨r, ?_, by simp [h2], by simpa using h3⟩, hi⟩
  show a.cells.set i (some x) = _
  rw [h1, List.set_append_left _ _ (by simpa using hlt)]
  simp [List.map_set]

theorem get_rep {a : GrayArray α} {xs : List α} (h : Rep a xs)
    (i : Nat) (hlt : i < xs.length) (j : Int) (hj : toI32 j = i) :
    get a j = .ok xs[i] := by
  have h2 := h.len_eq
  rw [get, getPtr, if_neg (by omega), hj]
  exact cellAt_rep h hlt

theorem openGap_eq {b : GrayArray α} {xs r : List α} {rest : List (Option α)} {i : Nat}
    (h1 : b.cells = xs.map some ++ rest) (h2 : b.len = xs.length) (hi : i ≤ xs.length)
    (hr : rest ≠ []) :
    openGap b i = .ok (xs.map some ++ rest) ∧ i = xs.length ∨
    openGap b i = .ok ((xs.take (i + 1)).map some ++ (xs.drop i).map some ++ rest.tail) ∧
      i < xs.length := by
  obtain ⟨y, r', rfl⟩ := List.exists_cons_of_ne_nil hr
  rw [openGap]
  by_cases hlt : i < b.len
  · right
    rw [if_pos hlt, moveCells, if_pos ⟨by rw [h1]; simp; omega, by rw [h1]; simp; omega⟩]
    refine ⟨?_, by omega⟩
    congr 1
    rw [h1, h2]
    have e1 : (xs.map some ++ y :: r').take (i + 1) = (xs.take (i + 1)).map some := by
      rw [List.take_append_of_le_length (by simp; omega), List.map_take]
    have e2 : ((xs.map some ++ y :: r').drop i).take (xs.length - i) = (xs.drop i).map some := by
      rw [List.drop_append_of_le_length (by simp; omega),
        List.take_append_of_le_length (by simp), List.take_of_length_le (by simp),
        List.map_drop]
    have e3 : (xs.map some ++ y :: r').drop (i + 1 + (xs.length - i)) = r' := by
      rw [show i + 1 + (xs.length - i) = xs.length + 1 by omega]
      rw [List.drop_append]
      simp
    rw [e1, e2, e3, List.tail_cons]
  · left
    rw [if_neg hlt, h1]
    exact ⟨rfl, by omega⟩

theorem insert_cells {xs : List α} {rest : List (Option α)} {i : Nat} {x : α}
    (hi : i < xs.length) :
    ((xs.take (i + 1)).map some ++ (xs.drop i).map some ++ rest).set i (some x) =
      (xs.take i ++ x :: xs.drop i).map some ++ rest := by
  rw [List.set_append_left _ _ (by simp; omega), List.set_append_left _ _ (by simp; omega)]
  congr 1
  rw [List.map_append, List.map_cons, List.take_add_one]
  have : xs[i]?.toList = [xs[i]] := by simp [hi]
  rw [this, List.map_append, List.set_append_right _ _ (by simp; omega)]
  simp [Nat.min_eq_left (Nat.le_of_lt hi)]

theorem insertAt32_rep {a : GrayArray α} {xs : List α} (h : Rep a xs)
    (hx : xs.length < 1073741824) (hi : a.iterating = 0) (i : Nat) (hle : i ≤ xs.length) (x : α) :
    ∃ b, insertAt32 a i x = .ok b ∧ Rep b (xs.take i ++ x :: xs.drop i) ∧ b.iterating = 0 := by
  have hl := h.len_eq
  obtain ⟨b, hb, ⟨r, h1, h2, h3⟩, hlt, hit⟩ := grow_rep h hx
  have hlt' : b.len < b.cells.length := hlt
  have hr : r ≠ [] := by
    intro hr; subst hr; rw [h1] at hlt'; simp at hlt'; omega
  rw [insertAt32, if_neg (by omega), if_neg (by omega), hb]
  simp only [Outcome.bind_ok, Int.toNat_natCast]
  have len_eq : (xs.take i ++ x :: xs.drop i).length = xs.length + 1 := by simp; omega
  rcases openGap_eq (r := xs) h1 h2 hle hr with ⟨e, he⟩ | ⟨e, he⟩
  · rw [e]
    obtain ⟨y, r', rfl⟩ := List.exists_cons_of_ne_nil hr
    simp only [Outcome.bind_ok, writeCell]
    rw [if_pos (by simp; omega)]
    refine ⟨_, rfl, ⟨r', ?_, by rw [len_eq, ← h2], ?_⟩, by simp [hit, hi]⟩
    · show (xs.map some ++ y :: r').set i (some x) = _
      rw [he, List.set_append_right _ _ (by simp)]
      simp
    · rw [h1] at h3; simpa using h3
  · rw [e]
    simp only [Outcome.bind_ok, writeCell]
    rw [if_pos (by simp; omega)]
    refine ⟨_, rfl, ⟨r.tail, insert_cells he, by rw [len_eq, ← h2], ?_⟩, by simp [hit, hi]⟩
    show (((xs.take (i + 1)).map some ++ (xs.drop i).map some ++ r.tail).set i (some x)).length ≤ _
    have hrl : 0 < r.length := List.length_pos_iff.2 hr
    rw [h1] at h3
    simp at h3 ⊢
    omega

theorem removeAt32_rep {a : GrayArray α} {xs : List α} (h : Rep a xs) (hi : a.iterating = 0)
    (i : Nat) (hlt : i < xs.length) :
    ∃ b, removeAt32 a i = .ok b ∧ Rep b (xs.take i ++ xs.drop (i + 1)) ∧ b.iterating = 0 := by
  obtain ⟨r, h1, h2, h3⟩ := h
  rw [removeAt32, if_neg (by omega), if_neg (by omega)]
  have hcl : xs.length ≤ a.cells.length := by rw [h1]; simp
  simp only [Int.toNat_natCast, moveCells]
  rw [if_pos ⟨by omega, by omega⟩]
  simp only [Outcome.bind_ok]
  have e1 : a.cells.take i = (xs.take i).map some := by
    rw [h1, List.take_append_of_le_length (by simp; omega), List.map_take]
  have e2 : (a.cells.drop (i + 1)).take (a.len - 1 - i) = (xs.drop (i + 1)).map some := by
    rw [h1, List.drop_append_of_le_length (by simp; omega),
      List.take_append_of_le_length (by simp; omega), List.take_of_length_le (by simp; omega),
      List.map_drop]
  refine ⟨_, rfl, ⟨a.cells.drop (i + (a.len - 1 - i)), ?_, by simp [h2]; omega, ?_⟩, hi⟩
  · show a.cells.take i ++ _ ++ _ = _
    rw [e1, e2, List.map_append]
  · show (a.cells.take i ++ (a.cells.drop (i + 1)).take (a.len - 1 - i) ++
      a.cells.drop (i + (a.len - 1 - i))).length ≤ _
    simp only [List.length_append, List.length_take, List.length_drop]
    omega

theorem removeLast_rep {esz : Nat} {a : GrayArray α} {xs : List α} (h : Rep a xs)
    (hb : xs.length * esz ≤ int32Max) (hi : a.iterating = 0)
    (hne : xs ≠ []) :
    ∃ b, removeLast esz a = .ok (b, xs.getLast hne) ∧ Rep b xs.dropLast ∧ b.iterating = 0 := by
  have hpos := List.length_pos_iff.2 hne
  have hl := h.len_eq
  rw [removeLast, if_neg (by omega), if_neg (by omega), hl, elemAt_rep h hb (by omega)]
  simp only [Outcome.bind_ok]
  obtain ⟨r, h1, h2, h3⟩ := h
  refine ⟨{ a with len := xs.length - 1 }, by rw [List.getLast_eq_getElem],
    ⟨(some (xs.getLast hne)) :: r, ?_, by simp, h3⟩, hi⟩
  show a.cells = _
  have e : xs.map some = xs.dropLast.map some ++ [some (xs.getLast hne)] := by
    rw [← List.map_singleton, ← List.map_append, List.dropLast_concat_getLast hne]
  rw [h1, e]
  simp

theorem removeFirst_rep {a : GrayArray α} {x : α} {xs : List α} (h : Rep a (x :: xs))
    (hi : a.iterating = 0) :
    ∃ b, removeFirst a = .ok (b, x) ∧ Rep b xs ∧ b.iterating = 0 := by
  have hl := h.len_eq
  simp only [List.length_cons] at hl
  obtain ⟨b, hb, hr, hit⟩ := removeAt32_rep h hi 0 (by simp)
  rw [removeFirst, if_neg (by omega), if_neg (by omega), cellAt_rep h (by simp)]
  simp only [Outcome.bind_ok]
  have hb' : removeAt32 a 0 = .ok b := hb
  rw [hb']
  exact ⟨b, rfl, by simpa using hr, hit⟩

theorem clear_rep {a : GrayArray α} {xs : List α} (h : Rep a xs) (hi : a.iterating = 0) :
    ∃ b, clear a = .ok b ∧ Rep b [] ∧ b.iterating = 0 := by
  obtain ⟨r, h1, h2, h3⟩ := h
  rw [clear, if_neg (by omega)]
  exact ⟨_, rfl, ⟨a.cells, rfl, rfl, h3⟩, hi⟩

theorem pushTimes_rep (x : α) (n : Nat) : ∀ {a : GrayArray α} {xs : List α}, Rep a xs →
    a.iterating = 0 → xs.length + n ≤ 1073741824 →
    ∃ b, pushTimes x n a = .ok b ∧ Rep b (xs ++ List.replicate n x) ∧ b.iterating = 0 := by
  induction n with
  | zero => intro a xs h hi _; exact ⟨a, rfl, by simpa using h, hi⟩
  | succ n ih =>
    intro a xs h hi hn
    obtain ⟨b, hb, hr, hit⟩ := push_rep h (by omega) hi x
    obtain ⟨c, hc, hr', hit'⟩ := ih hr hit (by simp; omega)
    refine ⟨c, ?_, ?_, hit'⟩
    · rw [pushTimes, hb]; exact hc
    · simpa [List.replicate_succ] using hr'

theorem copy_rep {a : GrayArray α} {xs : List α} (h : Rep a xs) :
    ∃ b, copy a = .ok b ∧ Rep b xs ∧ b.iterating = 0 := by
  have hM : int32Max = 2147483647 := rfl
  have hm : minCap = 4 := rfl
  have hl := h.len_eq
  have hle := h.le
  have hc : xs.length ≤ (if 0 < a.len then a.len else minCap) := by split <;> omega
  rw [copy, copyCells_rep h hc]
  refine ⟨_, rfl, ⟨_, rfl, hl, ?_⟩, rfl⟩
  show (xs.map some ++ List.replicate _ none).length ≤ _
  simp only [List.length_append, List.length_map, List.length_replicate]
  split <;> omega

theorem reverseLoop_rep {esz : Nat} {a : GrayArray α} {xs : List α} (h : Rep a xs)
    (hesz : xs.length * esz ≤ int32Max)
    (hx : xs.length ≤ 1073741824) (n : Nat) : ∀ {r : GrayArray α} {ys : List α}, n ≤ xs.length →
    Rep r ys → r.iterating = 0 → ys.length + n ≤ xs.length →
    ∃ b, reverseLoop esz a n r = .ok b ∧ Rep b (ys ++ (xs.take n).reverse) ∧ b.iterating = 0 := by
  induction n with
  | zero => intro r ys _ hr hi _; exact ⟨r, rfl, by simpa using hr, hi⟩
  | succ n ih =>
    intro r ys hn hr hi hle
    obtain ⟨b, hb, hrb, hit⟩ := push_rep hr (by omega) hi xs[n]
    obtain ⟨c, hc, hrc, hit'⟩ := ih (by omega) hrb hit (by simp; omega)
    refine ⟨c, ?_, ?_, hit'⟩
    · rw [reverseLoop, elemAt_rep h hesz (by omega)]
      simp only [Outcome.bind_ok, hb]
      exact hc
    · have : (xs.take (n + 1)).reverse = xs[n] :: (xs.take n).reverse := by
        rw [List.take_add_one]; simp [show n < xs.length by omega]
      rw [this]; simpa using hrc

theorem concatLoop_rep {esz : Nat} {b : GrayArray α} {ys : List α} (h : Rep b ys)
    (hesz : ys.length * esz ≤ int32Max) (n : Nat) :
    ∀ {i : Nat} {r : GrayArray α} {xs : List α}, i + n = ys.length → Rep r xs →
    r.iterating = 0 → xs.length + n ≤ 1073741824 →
    ∃ c, concatLoop esz b n i r = .ok c ∧ Rep c (xs ++ ys.drop i) ∧ c.iterating = 0 := by
  induction n with
  | zero =>
    intro i r xs hi hr hit _
    refine ⟨r, rfl, ?_, hit⟩
    rw [List.drop_of_length_le (by omega)]; simpa using hr
  | succ n ih =>
    intro i r xs hi hr hit hle
    obtain ⟨c, hc, hrc, hit'⟩ := push_rep hr (by omega) hit (ys[i]'(by omega))
    obtain ⟨d, hd, hrd, hit''⟩ := ih (i := i + 1) (by omega) hrc hit' (by simp; omega)
    refine ⟨d, ?_, ?_, hit''⟩
    · rw [concatLoop, elemAt_rep h hesz (by omega)]
      simp only [Outcome.bind_ok, hc]
      exact hd
    · rw [List.drop_eq_getElem_cons (by omega)]
      simpa using hrd

theorem sub_rep {a : GrayArray α} {xs : List α} (h : Rep a xs) (s n : Nat)
    (hs : s + n ≤ xs.length) :
    ∃ b, sub a s n = .ok b ∧ Rep b ((xs.drop s).take n) ∧ b.iterating = 0 := by
  have hM : int32Max = 2147483647 := rfl
  have hm : minCap = 4 := rfl
  have hle := h.le
  obtain ⟨r, h1, h2, h3⟩ := h
  have hcl : xs.length ≤ a.cells.length := by rw [h1]; simp
  rw [sub, copyCells, if_pos ⟨by simp; omega, by split <;> omega⟩]
  simp only [Outcome.bind_ok]
  have e : (a.cells.drop s).take n = ((xs.drop s).take n).map some := by
    rw [h1, List.drop_append_of_le_length (by simp; omega),
      List.take_append_of_le_length (by simp; omega), List.map_take, List.map_drop]
  refine ⟨_, rfl, ⟨_, by rw [e], by simp; omega, ?_⟩, rfl⟩
  show ((a.cells.drop s).take n ++ List.replicate _ none).length ≤ _
  simp only [List.length_append, List.length_take, List.length_drop, List.length_replicate]
  split <;> omega

theorem findLoop_rep {esz : Nat} (p : α → Bool) {a : GrayArray α} {xs : List α} (h : Rep a xs)
    (hesz : xs.length * esz ≤ int32Max) (n : Nat) :
    ∀ i, i + n = xs.length →
      findLoop esz p a n i = .ok (((xs.drop i).findIdx? p).map (· + i)) := by
  induction n with
  | zero =>
    intro i hi
    rw [findLoop, List.drop_of_length_le (by omega)]
    simp
  | succ n ih =>
    intro i hi
    rw [findLoop, elemAt_rep h hesz (by omega)]
    simp only [Outcome.bind_ok]
    rw [List.drop_eq_getElem_cons (show i < xs.length by omega), List.findIdx?_cons]
    by_cases hp : p (xs[i]'(by omega)) = true
    · simp [hp]
    · rw [if_neg hp, if_neg hp, ih (i + 1) (by omega)]
      simp only [Option.map_map]
      congr 2
      funext k
      simp only [Function.comp]
      omega

theorem find_rep {esz : Nat} (p : α → Bool) {a : GrayArray α} {xs : List α} (h : Rep a xs)
    (hesz : xs.length * esz ≤ int32Max) :
    find esz p a = .ok (xs.findIdx? p) := by
  rw [find, findLoop_rep p h hesz a.len 0 (by have := h.len_eq; omega)]
  simp

theorem contains_rep {esz : Nat} (p : α → Bool) {a : GrayArray α} {xs : List α} (h : Rep a xs)
    (hesz : xs.length * esz ≤ int32Max) :
    contains esz p a = .ok (xs.any p) := by
  rw [contains, find_rep p h hesz]
  simp [List.findIdx?_isSome]

theorem countLoop_rep {esz : Nat} (p : α → Bool) {a : GrayArray α} {xs : List α} (h : Rep a xs)
    (hesz : xs.length * esz ≤ int32Max) (n : Nat) :
    ∀ i c, i + n = xs.length → countLoop esz p a n i c = .ok (c + (xs.drop i).countP p) := by
  induction n with
  | zero =>
    intro i c hi
    rw [countLoop, List.drop_of_length_le (by omega)]
    simp
  | succ n ih =>
    intro i c hi
    rw [countLoop, elemAt_rep h hesz (by omega)]
    simp only [Outcome.bind_ok]
    rw [ih (i + 1) _ (by omega), List.drop_eq_getElem_cons (show i < xs.length by omega),
      List.countP_cons]
    congr 1
    split <;> omega

end Verif.Arr

import Verif.Lemmas.Array
import Verif.Props.MapLib

/-! C76–C80: the searching, transforming and computing functions of `@arrays`
(/repo/grayc/src/stdlib/arrays.c), on arrays of the element type they were written for. -/
namespace Verif.Props
open Verif Verif.Arr

variable {α : Type}

/-! ### C76: reverse, slice, concat, split_every -/

theorem C76_reverse (esz : Nat) (a : GrayArray α) (xs : List α) (h : Rep a xs)
    (hb : xs.length * esz ≤ int32Max) (hx : xs.length ≤ 1073741824) :
    ∃ b, Arr.reverse esz a = .ok b ∧ Rep b xs.reverse := by
  have hM : int32Max = 2147483647 := rfl
  have hl := h.len_eq
  obtain ⟨b, hb, hr, _⟩ := reverseLoop_rep h hb hx a.len (by omega)
    (rep_new (α := α) a.len (by omega)) rfl (by simp; omega)
  refine ⟨b, hb, ?_⟩
  rw [hl, List.take_length] at hr
  simpa using hr

example : ∃ b, Arr.reverse 8 (fromList [1, 2, 3]) = .ok b ∧ Rep b [3, 2, 1] :=
  C76_reverse 8 _ [1, 2, 3] (rep_fromList _ (by decide)) (by decide) (by decide)

theorem C76_concat (esz : Nat) (a b : GrayArray α) (xs ys : List α) (ha : Rep a xs) (hb : Rep b ys)
    (hs : ys.length * esz ≤ int32Max) (hx : xs.length + ys.length ≤ 1073741824) :
    ∃ c, Arr.concat esz a b = .ok c ∧ Rep c (xs ++ ys) := by
  obtain ⟨r, hr, hrr, hri⟩ := copy_rep ha
  obtain ⟨c, hc, hrc, _⟩ := concatLoop_rep hb hs b.len (i := 0) (by have := hb.len_eq; omega) hrr
    hri (by have := hb.len_eq; omega)
  refine ⟨c, ?_, by simpa using hrc⟩
  rw [Arr.concat, hr]
  exact hc

example : ∃ c, Arr.concat 8 (fromList [1, 2]) (fromList [3]) = .ok c ∧ Rep c [1, 2, 3] :=
  C76_concat 8 _ _ [1, 2] [3] (rep_fromList _ (by decide)) (rep_fromList _ (by decide)) (by decide)
    (by decide)

/-- The elements at positions `start`, …, `stop - 1` that exist. -/
def listSlice (xs : List α) (start stop : Int) : List α :=
  (xs.zipIdx.filter fun p => decide (start ≤ p.2 ∧ (p.2 : Int) < stop)).map Prod.fst

theorem zipIdx_filter_range (xs : List α) (s : Nat) : ∀ (k : Nat) (t : Nat),
    ((xs.zipIdx k).filter fun p => decide (s ≤ p.2 ∧ p.2 < t)).map Prod.fst =
      (xs.take (t - k)).drop (s - k) := by
  induction xs with
  | nil => simp
  | cons x xs ih =>
    intro k t
    rw [List.zipIdx_cons, List.filter_cons]
    by_cases hk : s ≤ k ∧ k < t
    · rw [if_pos (by simpa using hk), List.map_cons, ih (k + 1) t]
      obtain ⟨m, hm⟩ : ∃ m, t - k = m + 1 := ⟨t - k - 1, by omega⟩
      rw [hm, show t - (k + 1) = m by omega, show s - k = 0 by omega,
        show s - (k + 1) = 0 by omega]
      simp
    · rw [if_neg (by simpa using hk), ih (k + 1) t]
      by_cases h1 : k < t
      · obtain ⟨m, hm⟩ : ∃ m, t - k = m + 1 := ⟨t - k - 1, by omega⟩
        obtain ⟨j, hj⟩ : ∃ j, s - k = j + 1 := ⟨s - k - 1, by omega⟩
        rw [hm, hj, show t - (k + 1) = m by omega, show s - (k + 1) = j by omega]
        simp
      · rw [show t - (k + 1) = 0 by omega, show t - k = 0 by omega]
        simp

theorem listSlice_eq (xs : List α) (start stop : Int) :
    listSlice xs start stop = (xs.take stop.toNat).drop start.toNat := by
  have := zipIdx_filter_range xs start.toNat 0 stop.toNat
  simp only [Nat.sub_zero] at this
  rw [← this, listSlice]
  congr 2
  funext p
  congr 1
  apply propext
  omega

/-- C76 as claimed for slice: any integer bounds. -/
def C76_slice_statement : Prop :=
  ∀ (xs : List Nat) (start stop : Int), xs.length * 8 ≤ int32Max →
    ∃ b, Arr.slice 8 (fromList xs) start stop = .ok b ∧ Rep b (listSlice xs start stop)

/-- slice with bounds in the `int32_t` range. Missing for the full claim: bounds outside it are
reduced modulo 2^32 (`C76_slice_witness`). -/
theorem C76_slice_partial (esz : Nat) (a : GrayArray α) (xs : List α) (h : Rep a xs)
    (hb : xs.length * esz ≤ int32Max) (start stop : Int) (h1 : -2147483648 ≤ start)
    (h2 : start < 2147483648) (h3 : -2147483648 ≤ stop) (h4 : stop < 2147483648) :
    ∃ b, Arr.slice esz a start stop = .ok b ∧ Rep b (listSlice xs start stop) := by
  have hM : int32Max = 2147483647 := rfl
  have hl := h.len_eq
  rw [listSlice_eq, Arr.slice, toI32_of_range h1 h2, toI32_of_range h3 h4, slice32]
  by_cases hc : min stop (a.len : Int) ≤ max start 0
  · rw [if_pos hc]
    refine ⟨_, rfl, ?_⟩
    have : (xs.take stop.toNat).drop start.toNat = [] := by
      rw [List.drop_eq_nil_iff, List.length_take]
      omega
    rw [this]
    exact rep_new 1 (by omega)
  · have hlt : (max start 0).toNat < xs.length := by omega
    have hm : (max start 0).toNat * esz ≤ xs.length * esz := Nat.mul_le_mul_right _ (by omega)
    rw [if_neg hc, if_neg (by omega)]
    obtain ⟨b, hb1, hb2, _⟩ := sub_rep h (max start 0).toNat
      (min stop (a.len : Int) - max start 0).toNat (by omega)
    refine ⟨b, hb1, ?_⟩
    rw [List.drop_take]
    have e1 : (max start 0).toNat = start.toNat := by omega
    rw [e1] at hb2
    by_cases hs : stop ≤ (a.len : Int)
    · rw [show (min stop (a.len : Int) - max start 0).toNat = stop.toNat - start.toNat by omega]
        at hb2
      exact hb2
    · have e : (xs.drop start.toNat).take (stop.toNat - start.toNat) =
          (xs.drop start.toNat).take (min stop (a.len : Int) - max start 0).toNat := by
        rw [List.take_of_length_le (by simp; omega), List.take_of_length_le (by simp; omega)]
      rw [e]
      exact hb2

example : ∃ b, Arr.slice 8 (fromList [1, 2, 3, 4]) 1 3 = .ok b ∧ Rep b [2, 3] :=
  C76_slice_partial 8 _ [1, 2, 3, 4] (rep_fromList _ (by decide)) (by decide) 1 3 (by decide)
    (by decide) (by decide) (by decide)

/-- `arrays.slice({1, 2}, 0, 4294967296)` is empty. -/
theorem C76_slice_witness : Arr.slice 8 (fromList [1, 2]) 0 4294967296 = .ok (new 1) ∧
    listSlice [1, 2] 0 4294967296 = [1, 2] := by decide

theorem C76_slice_fails : ¬ C76_slice_statement := by
  intro h
  obtain ⟨b, hb, hr⟩ := h [1, 2] 0 4294967296 (by decide)
  rw [C76_slice_witness.1] at hb
  rw [C76_slice_witness.2] at hr
  cases hb
  have := hr.len_eq
  simp [new] at this

/-- `css` cuts `xs` into consecutive pieces of `n` elements, the last one possibly shorter. -/
def IsChunks (n : Nat) (xs : List α) (css : List (List α)) : Prop :=
  css.flatten = xs ∧ (∀ c ∈ css, 0 < c.length ∧ c.length ≤ n) ∧
    ∀ c ∈ css.dropLast, c.length = n

/-- `r` holds arrays that hold the lists `css`. -/
def RepChunks (r : GrayArray (GrayArray α)) (css : List (List α)) : Prop :=
  ∃ as, Rep r as ∧ List.Forall₂ Rep as css

theorem dropLast_snoc_mem {c : List α} {css : List (List α)} {d : List α}
    (h : c ∈ (css ++ [d]).dropLast) : c ∈ css := by
  simpa using h

theorem splitLoop_rep {a : GrayArray α} {xs : List α} (h : Rep a xs) (n : Nat) (hn : 0 < n)
    (hx : xs.length ≤ 1073741824) (hov : xs.length + n ≤ int32Max + 1) (fuel : Nat) :
    ∀ (i : Nat) (r : GrayArray (GrayArray α)) (css : List (List α)), xs.length ≤ i + fuel →
      RepChunks r css → r.iterating = 0 → css.length ≤ i →
      IsChunks n (xs.take i) css → (i < xs.length → ∀ c ∈ css, c.length = n) →
      ∃ r' css', splitLoop a n fuel i r = .ok r' ∧ RepChunks r' css' ∧ IsChunks n xs css' := by
  have hM : int32Max = 2147483647 := rfl
  have hl := h.len_eq
  have done : ∀ (i : Nat) (r : GrayArray (GrayArray α)) (css : List (List α)),
      ¬ i < a.len → RepChunks r css → IsChunks n (xs.take i) css →
      RepChunks r css ∧ IsChunks n xs css := by
    intro i r css hi hr hc
    rw [List.take_of_length_le (by omega)] at hc
    exact ⟨hr, hc⟩
  induction fuel with
  | zero =>
    intro i r css hf hr _ _ hc _
    have hi : ¬ i < a.len := by omega
    obtain ⟨h1, h2⟩ := done i r css hi hr hc
    exact ⟨r, css, by rw [splitLoop, if_neg hi], h1, h2⟩
  | succ fuel ih =>
    intro i r css hf hr hit hlen hc hfull
    by_cases hi : i < a.len
    · rw [splitLoop, if_pos hi, if_neg (by omega)]
      obtain ⟨chunk, hch, hrc, _⟩ := sub_rep h i (if i + n ≤ a.len then n else a.len - i)
        (by split <;> omega)
      obtain ⟨as, har, hfa⟩ := hr
      have hal : as.length = css.length := hfa.length_eq
      obtain ⟨r', hr', hrep', hit'⟩ := push_rep har (by omega) hit chunk
      simp only [hch, hr', Outcome.bind_ok]
      have ech : (xs.drop i).take (if i + n ≤ a.len then n else a.len - i) =
          (xs.drop i).take n := by
        split
        · rfl
        · rw [List.take_of_length_le (by simp; omega), List.take_of_length_le (by simp; omega)]
      rw [ech] at hrc
      have htake : xs.take (i + n) = xs.take i ++ (xs.drop i).take n := List.take_add
      have hclen : ((xs.drop i).take n).length = min n (xs.length - i) := by simp
      refine ih (i + n) r' (css ++ [(xs.drop i).take n]) (by omega) ⟨_, hrep', ?_⟩ hit'
        (by simp; omega) ⟨?_, ?_, ?_⟩ ?_
      · exact List.rel_append hfa (List.Forall₂.cons hrc List.Forall₂.nil)
      · rw [List.flatten_append, hc.1, htake]; simp
      · intro c hm
        rw [List.mem_append, List.mem_singleton] at hm
        rcases hm with hm | rfl
        · exact hc.2.1 c hm
        · omega
      · intro c hm
        exact hfull (by omega) c (dropLast_snoc_mem hm)
      · intro hlt c hm
        rw [List.mem_append, List.mem_singleton] at hm
        rcases hm with hm | rfl
        · exact hfull (by omega) c hm
        · omega
    · obtain ⟨h1, h2⟩ := done i r css hi hr hc
      exact ⟨r, css, by rw [splitLoop, if_neg hi], h1, h2⟩

/-- C76 as claimed for split_every: any size of at least 1. -/
def C76_split_statement : Prop :=
  ∀ (xs : List Nat) (n : Int), 1 ≤ n → xs.length * 8 ≤ int32Max →
    ∃ r css, Arr.splitEvery (fromList xs) n = .ok r ∧ RepChunks r css ∧ IsChunks n.toNat xs css

/-- split_every with a size in the `int32_t` range. Missing for the full claim: larger sizes are
reduced modulo 2^32 (`C76_split_witness`); also `i + size` overflows when the size and the array
length together exceed 2^31 (`C76_split_overflow_witness`). -/
theorem C76_split_partial (a : GrayArray α) (xs : List α) (h : Rep a xs) (n : Int) (hn : 1 ≤ n)
    (hx : xs.length ≤ 1073741824) (hov : xs.length + n ≤ 2147483648) (h2 : n < 2147483648) :
    ∃ r css, Arr.splitEvery a n = .ok r ∧ RepChunks r css ∧ IsChunks n.toNat xs css := by
  have hM : int32Max = 2147483647 := rfl
  have hl := h.len_eq
  rw [Arr.splitEvery, toI32_of_range (by omega) h2, splitEvery32, if_neg (by omega)]
  exact splitLoop_rep h n.toNat (by omega) hx (by omega) a.len 0 _ [] (by omega)
    ⟨[], rep_new 4 (by decide), List.Forall₂.nil⟩ rfl (by simp) ⟨by simp, by simp, by simp⟩
    (by simp)

example : ∃ r css, Arr.splitEvery (fromList [1, 2, 3]) 2 = .ok r ∧ RepChunks r css ∧
    IsChunks 2 [1, 2, 3] css :=
  C76_split_partial _ [1, 2, 3] (rep_fromList _ (by decide)) 2 (by decide) (by decide) (by decide)
    (by decide)

example : IsChunks 2 [1, 2, 3] [[1, 2], [3]] := by
  refine ⟨rfl, ?_, ?_⟩ <;> decide

/-- `arrays.split_every({1, 2}, 4294967297)` makes two pieces of one element. -/
theorem C76_split_witness : ∃ r, Arr.splitEvery (fromList [1, 2]) 4294967297 = .ok r ∧ r.len = 2 :=
  ⟨_, rfl, rfl⟩

theorem IsChunks.short {n : Nat} {xs : List α} {css : List (List α)} (h : IsChunks n xs css)
    (hx : xs.length < n) : css.length ≤ 1 := by
  by_contra hc
  obtain ⟨h1, _, h3⟩ := h
  match css, hc with
  | [], hc => simp at hc
  | [_], hc => simp at hc
  | c :: d :: t, _ =>
    have := h3 c (by simp)
    have hl : (c :: d :: t).flatten.length = xs.length := by rw [h1]
    simp only [List.flatten_cons, List.length_append] at hl
    omega

theorem C76_split_fails : ¬ C76_split_statement := by
  intro h
  obtain ⟨r, css, hr, ⟨as, ha, hf⟩, hc⟩ := h [1, 2] 4294967297 (by decide) (by decide)
  obtain ⟨r', hr', hl⟩ := C76_split_witness
  rw [hr] at hr'
  cases hr'
  have h1 := hc.short (by simp)
  have h2 := hf.length_eq
  have h3 := ha.len_eq
  omega

/-- With a first chunk that does not exhaust the array, a size that takes `i + size` past the
`int32_t` range makes the loop undefined. -/
theorem C76_split_overflow_witness (a : GrayArray α) (xs : List α) (h : Rep a xs) (n : Nat)
    (h1 : n < xs.length) (h2 : int32Max < n + n) : splitEvery32 a n = .ub := by
  have hM : int32Max = 2147483647 := rfl
  have hl := h.len_eq
  have hle := h.le
  rw [splitEvery32, if_neg (by omega), show (n : Int).toNat = n by omega]
  obtain ⟨m, hm⟩ : ∃ m, a.len = m + 1 := ⟨a.len - 1, by omega⟩
  obtain ⟨k, hk⟩ : ∃ k, m = k + 1 := ⟨m - 1, by omega⟩
  rw [hm, hk, splitLoop, if_pos (by omega), if_neg (by omega), if_pos (by omega)]
  obtain ⟨c, hc, _, _⟩ := sub_rep h 0 n (by omega)
  rw [hc]
  obtain ⟨r, hr, _, _⟩ := push_rep (rep_new (α := GrayArray α) 4 (by decide)) (by simp) rfl c
  simp only [Outcome.bind_ok, hr]
  rw [splitLoop, if_pos (by omega), if_pos (by omega)]

example : ∃ xs : List Nat, ∃ n, n < xs.length ∧ int32Max < n + n ∧ xs.length ≤ int32Max := by
  obtain ⟨xs, h⟩ : ∃ xs : List Nat, xs.length = 1073741825 :=
    ⟨List.replicate 1073741825 0, List.length_replicate⟩
  have hM : int32Max = 2147483647 := rfl
  exact ⟨xs, 1073741824, by omega, by omega, by omega⟩

/-! ### C77: contains, index_of, count, remove -/

/-- C77: on an array of integers (or of strings compared by content) the search functions agree
with equality of elements. -/
theorem C77_search [DecidableEq α] (esz : Nat) (a : GrayArray α) (xs : List α) (h : Rep a xs)
    (hb : xs.length * esz ≤ int32Max) (v : α) :
    Arr.contains esz (fun x => decide (x = v)) a = .ok (decide (v ∈ xs)) ∧
    (∃ r, Arr.indexOf esz (fun x => decide (x = v)) a = .ok r ∧
      ((r = -1 ∧ v ∉ xs) ∨ ∃ i : Nat, r = i ∧ xs[i]? = some v ∧ v ∉ xs.take i)) ∧
    Arr.count esz (fun x => decide (x = v)) a = .ok (xs.count v) := by
  refine ⟨?_, ?_, ?_⟩
  · rw [contains_rep _ h hb]
    congr 1
    rw [Bool.eq_iff_iff]
    simp
  · have hf := find_rep (fun x => decide (x = v)) h hb
    cases hi : xs.findIdx? (fun x => decide (x = v)) with
    | none =>
      refine ⟨-1, ?_, Or.inl ⟨rfl, ?_⟩⟩
      · simp [Arr.indexOf, hf, hi]
      · intro hm
        have := List.findIdx?_eq_none_iff.1 hi v hm
        simp at this
    | some i =>
      refine ⟨i, ?_, Or.inr ⟨i, rfl, ?_, ?_⟩⟩
      · simp [Arr.indexOf, hf, hi]
      · obtain ⟨h1, h2, _⟩ := List.findIdx?_eq_some_iff_getElem.1 hi
        rw [List.getElem?_eq_getElem h1]
        simpa using h2
      · obtain ⟨h1, _, h3⟩ := List.findIdx?_eq_some_iff_getElem.1 hi
        intro hm
        obtain ⟨j, hj, hv⟩ := List.mem_iff_getElem.1 hm
        have hj' : j < i := by simp at hj; omega
        have := h3 j hj'
        rw [List.getElem_take] at hv
        simp [hv] at this
  · rw [Arr.count, countLoop_rep _ h hb a.len 0 0 (by have := h.len_eq; omega)]
    simp [List.count]
    congr 1

/-- remove deletes the first occurrence and nothing else. -/
theorem C77_remove [DecidableEq α] (esz : Nat) (a : GrayArray α) (xs : List α) (h : Rep a xs)
    (hb : xs.length * esz ≤ int32Max) (hi : a.iterating = 0) (v : α) :
    ∃ b, Arr.removeValue esz (fun x => decide (x = v)) a = .ok b ∧ Rep b (xs.erase v) := by
  have hf := find_rep (fun x => decide (x = v)) h hb
  have hp : (fun x : α => decide (x = v)) = fun x => x == v := by
    funext x; rw [Bool.eq_iff_iff]; simp
  cases hidx : xs.findIdx? (fun x => decide (x = v)) with
  | none =>
    refine ⟨a, by simp [Arr.removeValue, hf, hidx], ?_⟩
    have hm : v ∉ xs := by
      intro hm
      have := List.findIdx?_eq_none_iff.1 hidx v hm
      simp at this
    rwa [List.erase_of_not_mem hm]
  | some i =>
    obtain ⟨h1, h2, h3⟩ := List.findIdx?_eq_some_iff_getElem.1 hidx
    obtain ⟨b, hb1, hb2, _⟩ := removeAt32_rep h hi i h1
    refine ⟨b, by simp [Arr.removeValue, hf, hidx, hb1], ?_⟩
    have hidx' : xs.idxOf v = i := by
      have := hidx
      rw [hp] at this
      exact (List.findIdx?_eq_some_iff_findIdx_eq.1 this).2
    rw [List.erase_eq_eraseIdx_of_idxOf hidx', List.eraseIdx_eq_take_drop_succ]
    exact hb2

example : Arr.count 8 (fun x => decide (x = 2)) (fromList [1, 2, 3, 2]) = .ok 2 :=
  (C77_search 8 _ [1, 2, 3, 2] (rep_fromList _ (by decide)) (by decide) 2).2.2

/-! ### C78: deduplicate -/

/-- The elements that have no equal to their left. -/
def keepFirst [DecidableEq α] (xs : List α) : List α :=
  (xs.zipIdx.filter fun p => decide (p.1 ∉ xs.take p.2)).map Prod.fst

theorem keepFirst_snoc [DecidableEq α] (xs : List α) (x : α) :
    keepFirst (xs ++ [x]) = if x ∈ xs then keepFirst xs else keepFirst xs ++ [x] := by
  have h1 : ∀ p ∈ xs.zipIdx, (p.1 ∉ (xs ++ [x]).take p.2) = (p.1 ∉ xs.take p.2) := by
    intro p hp
    obtain ⟨y, i⟩ := p
    have := List.mem_zipIdx hp
    rw [List.take_append_of_le_length (by simp; omega)]
  unfold keepFirst
  rw [List.zipIdx_append, List.filter_append, List.map_append]
  have hfc : xs.zipIdx.filter (fun p => decide (p.1 ∉ (xs ++ [x]).take p.2)) =
      xs.zipIdx.filter (fun p => decide (p.1 ∉ xs.take p.2)) :=
    List.filter_congr fun p hp => by rw [decide_eq_decide]; exact iff_of_eq (h1 p hp)
  rw [hfc]
  simp only [List.zipIdx_singleton, Nat.zero_add]
  by_cases hx : x ∈ xs <;> simp [hx]

theorem mem_keepFirst [DecidableEq α] (xs : List α) (x : α) : x ∈ keepFirst xs ↔ x ∈ xs := by
  induction xs using List.reverseRecOn with
  | nil => simp [keepFirst]
  | append_singleton xs y ih =>
    rw [keepFirst_snoc]
    split
    · rw [ih]; constructor
      · intro h; simp [h]
      · intro h; simp at h; rcases h with h | rfl <;> assumption
    · simp [ih]

theorem dedupLoop_rep [DecidableEq α] (eqv : α → α → Bool) (he : ∀ x y, eqv x y = decide (x = y))
    {a : GrayArray α} {xs : List α} (h : Rep a xs) (hx : xs.length ≤ 1073741824) (n : Nat) :
    ∀ (i : Nat) (r : GrayArray α), i + n = xs.length → Rep r (keepFirst (xs.take i)) →
      r.iterating = 0 → (keepFirst (xs.take i)).length ≤ i →
      ∃ b, dedupLoop eqv a n i r = .ok b ∧ Rep b (keepFirst xs) := by
  have hM : int32Max = 2147483647 := rfl
  induction n with
  | zero =>
    intro i r hi hr _ _
    refine ⟨r, rfl, ?_⟩
    rwa [List.take_of_length_le (by omega)] at hr
  | succ n ih =>
    intro i r hi hr hit hlen
    have ht : xs.take (i + 1) = xs.take i ++ [xs[i]'(by omega)] := by
      rw [List.take_add_one]; simp [show i < xs.length by omega]
    rw [dedupLoop, cellAt_rep h (by omega)]
    simp only [Outcome.bind_ok]
    rw [contains_rep _ hr (by omega)]
    simp only [Outcome.bind_ok, he]
    have hany : ((keepFirst (xs.take i)).any fun y => decide (xs[i]'(by omega) = y)) =
        decide (xs[i]'(by omega) ∈ xs.take i) := by
      rw [Bool.eq_iff_iff]
      simp only [List.any_eq_true, decide_eq_true_eq, ← mem_keepFirst (xs.take i)]
      constructor
      · rintro ⟨y, hy, rfl⟩; exact hy
      · intro hy; exact ⟨_, hy, rfl⟩
    rw [hany]
    by_cases hm : xs[i]'(by omega) ∈ xs.take i
    · rw [if_pos (by simpa using hm)]
      have e : keepFirst (xs.take (i + 1)) = keepFirst (xs.take i) := by
        rw [ht, keepFirst_snoc, if_pos hm]
      exact ih (i + 1) r (by omega) (by rwa [e]) hit (by rw [e]; omega)
    · rw [if_neg (by simpa using hm)]
      have e : keepFirst (xs.take (i + 1)) = keepFirst (xs.take i) ++ [xs[i]'(by omega)] := by
        rw [ht, keepFirst_snoc, if_neg hm]
      obtain ⟨b, hb, hrb, hib⟩ := push_rep hr (by omega) hit (xs[i]'(by omega))
      rw [hb]
      simp only [Outcome.bind_ok]
      exact ih (i + 1) b (by omega) (by rwa [e]) hib (by rw [e]; simp; omega)

/-- C78 as claimed: on an array of strings, deduplicate removes the strings that equal an earlier
one. -/
def C78_statement : Prop :=
  ∀ xs : List StrVal, xs.length ≤ 1073741824 →
    ∃ b ys, Arr.dedup sameStruct (fromList xs) = .ok b ∧ Rep b ys ∧
      ys.map StrVal.chars = keepFirst (xs.map StrVal.chars)

/-- deduplicate on element types whose values are equal exactly when their bytes are. Missing for
the full claim: strings, which are compared by address (`C78_witness`). -/
theorem C78_partial [DecidableEq α] (eqv : α → α → Bool) (he : ∀ x y, eqv x y = decide (x = y))
    (a : GrayArray α) (xs : List α) (h : Rep a xs) (hx : xs.length ≤ 1073741824) :
    ∃ b, Arr.dedup eqv a = .ok b ∧ Rep b (keepFirst xs) := by
  have hM : int32Max = 2147483647 := rfl
  have hl := h.len_eq
  exact dedupLoop_rep eqv he h hx a.len 0 _ (by omega)
    (by rw [List.take_zero]; exact rep_new _ (by omega)) rfl (by simp [keepFirst])

example : ∃ b, Arr.dedup (fun x y => decide (x = y)) (fromList [1, 2, 1, 3, 2]) = .ok b ∧
    Rep b [1, 2, 3] :=
  C78_partial _ (fun _ _ => rfl) _ [1, 2, 1, 3, 2] (rep_fromList _ (by decide)) (by decide)

/-- Two equal strings at different addresses are both kept. -/
theorem C78_witness : ∃ b, Arr.dedup sameStruct (fromList [⟨1, [97#8]⟩, ⟨2, [97#8]⟩]) = .ok b ∧
    Rep b [⟨1, [97#8]⟩, ⟨2, [97#8]⟩] :=
  ⟨_, rfl, [], rfl, rfl, by decide⟩

theorem C78_fails : ¬ C78_statement := by
  intro h
  obtain ⟨b, ys, hb, hr, he⟩ := h [⟨1, [97#8]⟩, ⟨2, [97#8]⟩] (by decide)
  obtain ⟨b', hb', hr'⟩ := C78_witness
  rw [hb] at hb'
  cases hb'
  rw [hr.unique hr'] at he
  revert he
  decide

/-! ### C79: get_sum -/

/-- C79 as claimed: like every other integer addition (STANDARD 3.1.2), get_sum returns the sum or
stops with an overflow panic. -/
def C79_statement : Prop :=
  ∀ xs : List Int, (∀ x ∈ xs, minI64 ≤ x ∧ x ≤ maxI64) → xs.length * 8 ≤ int32Max →
    (getSum 8 (fromList xs) = .ok xs.sum ∧ minI64 ≤ xs.sum ∧ xs.sum ≤ maxI64) ∨
    ∃ c, getSum 8 (fromList xs) = .panic c

theorem sumLoop_rep {esz : Nat} {a : GrayArray Int} {xs : List Int} (h : Rep a xs)
    (hb : xs.length * esz ≤ int32Max) (n : Nat) : ∀ (i : Nat) (t : Int), i + n = xs.length →
    (∀ k, k ≤ n → minI64 ≤ t + ((xs.drop i).take k).sum ∧ t + ((xs.drop i).take k).sum ≤ maxI64) →
    sumLoop esz a n i t = .ok (t + (xs.drop i).sum) := by
  induction n with
  | zero =>
    intro i t hi _
    rw [sumLoop, List.drop_of_length_le (by omega)]
    simp
  | succ n ih =>
    intro i t hi hk
    have hd := List.drop_eq_getElem_cons (show i < xs.length by omega)
    rw [hd] at hk
    have hd' : ((xs[i]'(by omega) :: xs.drop (i + 1)).take 1).sum = xs[i]'(by omega) := by
      rw [List.take_succ_cons, List.take_zero, List.sum_cons, List.sum_nil, Int.add_zero]
    rw [sumLoop, elemAt_rep h hb (by omega), hd]
    simp only [Outcome.bind_ok]
    have h1 := hk 1 (by omega)
    rw [hd'] at h1
    rw [if_neg (by omega), ih (i + 1) _ (by omega)]
    · simp only [List.sum_cons, Int.add_assoc]
    · intro k hkn
      have := hk (k + 1) (by omega)
      simp only [List.take_succ_cons, List.sum_cons] at this
      omega

/-- get_sum is the sum when no prefix sum leaves the `int` range. Missing for the full claim:
otherwise the addition is unchecked C arithmetic (`C79_witness`). -/
theorem C79_partial (esz : Nat) (a : GrayArray Int) (xs : List Int) (h : Rep a xs)
    (hb : xs.length * esz ≤ int32Max)
    (hp : ∀ k, minI64 ≤ (xs.take k).sum ∧ (xs.take k).sum ≤ maxI64) :
    getSum esz a = .ok xs.sum := by
  rw [getSum, sumLoop_rep h hb a.len 0 0 (by have := h.len_eq; omega) (by simpa using fun k _ => hp k)]
  simp

example : getSum 8 (fromList [1, 2, 3]) = .ok 6 := by decide

/-- `arrays.get_sum({9223372036854775807, 1})`. -/
theorem C79_witness : getSum 8 (fromList [9223372036854775807, 1]) = .ub := by decide

theorem C79_fails : ¬ C79_statement := by
  intro h
  rcases h [9223372036854775807, 1] (by decide) (by decide) with h | ⟨c, h⟩ <;>
    simp [C79_witness] at h

/-! ### C80: get_min and get_max -/

/-- C80: the result of get_min is an element no larger than any other. -/
def C80_statement : Prop :=
  ∀ xs : List Int, xs.length * 8 ≤ int32Max → ∀ r, getMin 8 (fromList xs) = .ok r → r ∈ xs

theorem bestLoop_rep {esz : Nat} (better : Int → Int → Bool) {a : GrayArray Int} {xs : List Int}
    (h : Rep a xs) (hb : xs.length * esz ≤ int32Max) (n : Nat) : ∀ (i : Nat) (m : Int),
    i + n = xs.length →
    bestLoop esz better a n i m =
      .ok ((xs.drop i).foldl (fun m v => if better v m then v else m) m) := by
  induction n with
  | zero =>
    intro i m hi
    rw [bestLoop, List.drop_of_length_le (by omega)]
    rfl
  | succ n ih =>
    intro i m hi
    rw [bestLoop, elemAt_rep h hb (by omega), List.drop_eq_getElem_cons (show i < xs.length by omega)]
    simp only [Outcome.bind_ok, List.foldl_cons]
    rw [ih (i + 1) _ (by omega)]

theorem foldl_min (xs : List Int) : ∀ m : Int,
    let r := xs.foldl (fun m v => if decide (v < m) then v else m) m
    (r = m ∨ r ∈ xs) ∧ r ≤ m ∧ ∀ x ∈ xs, r ≤ x := by
  induction xs with
  | nil => intro m; simp
  | cons x xs ih =>
    intro m
    simp only [List.foldl_cons]
    by_cases hx : x < m
    · obtain ⟨h1, h2, h3⟩ := ih x
      simp only [hx, decide_true, if_true]
      refine ⟨?_, by omega, ?_⟩
      · rcases h1 with h1 | h1
        · right; rw [h1]; simp
        · right; exact List.mem_cons_of_mem _ h1
      · intro y hy
        rcases List.mem_cons.1 hy with rfl | hy
        · exact h2
        · exact h3 y hy
    · obtain ⟨h1, h2, h3⟩ := ih m
      simp only [hx, decide_false, Bool.false_eq_true, if_false]
      refine ⟨?_, h2, ?_⟩
      · rcases h1 with h1 | h1
        · left; exact h1
        · right; exact List.mem_cons_of_mem _ h1
      · intro y hy
        rcases List.mem_cons.1 hy with rfl | hy
        · omega
        · exact h3 y hy

theorem foldl_max (xs : List Int) : ∀ m : Int,
    let r := xs.foldl (fun m v => if decide (m < v) then v else m) m
    (r = m ∨ r ∈ xs) ∧ m ≤ r ∧ ∀ x ∈ xs, x ≤ r := by
  induction xs with
  | nil => intro m; simp
  | cons x xs ih =>
    intro m
    simp only [List.foldl_cons]
    by_cases hx : m < x
    · obtain ⟨h1, h2, h3⟩ := ih x
      simp only [hx, decide_true, if_true]
      refine ⟨?_, by omega, ?_⟩
      · rcases h1 with h1 | h1
        · right; rw [h1]; simp
        · right; exact List.mem_cons_of_mem _ h1
      · intro y hy
        rcases List.mem_cons.1 hy with rfl | hy
        · exact h2
        · exact h3 y hy
    · obtain ⟨h1, h2, h3⟩ := ih m
      simp only [hx, decide_false, Bool.false_eq_true, if_false]
      refine ⟨?_, h2, ?_⟩
      · rcases h1 with h1 | h1
        · left; exact h1
        · right; exact List.mem_cons_of_mem _ h1
      · intro y hy
        rcases List.mem_cons.1 hy with rfl | hy
        · omega
        · exact h3 y hy

/-- On a non-empty integer array get_min and get_max return the extreme elements. Missing for the
full claim: on an empty array both return 0, which is no element (`C80_witness`). -/
theorem C80_partial (esz : Nat) (a : GrayArray Int) (xs : List Int) (h : Rep a xs)
    (hb : xs.length * esz ≤ int32Max) (hne : xs ≠ []) :
    (∃ r, getMin esz a = .ok r ∧ r ∈ xs ∧ ∀ x ∈ xs, r ≤ x) ∧
    (∃ r, getMax esz a = .ok r ∧ r ∈ xs ∧ ∀ x ∈ xs, x ≤ r) := by
  have hl := h.len_eq
  cases xs with
  | nil => exact absurd rfl hne
  | cons y ys =>
    simp only [List.length_cons] at hl
    have hc := cellAt_rep h (i := 0) (by simp)
    constructor
    · rw [getMin, if_neg (by omega), hc]
      simp only [Outcome.bind_ok]
      rw [bestLoop_rep _ h hb _ 1 _ (by simp; omega)]
      obtain ⟨h1, h2, h3⟩ := foldl_min ys y
      refine ⟨_, rfl, ?_, ?_⟩
      · rcases h1 with h1 | h1
        · simp at h1 ⊢; rw [h1]; simp
        · simp at h1 ⊢; right; exact h1
      · intro x hx
        rcases List.mem_cons.1 hx with rfl | hx
        · simpa using h2
        · simpa using h3 x hx
    · rw [getMax, if_neg (by omega), hc]
      simp only [Outcome.bind_ok]
      rw [bestLoop_rep _ h hb _ 1 _ (by simp; omega)]
      obtain ⟨h1, h2, h3⟩ := foldl_max ys y
      refine ⟨_, rfl, ?_, ?_⟩
      · rcases h1 with h1 | h1
        · simp at h1 ⊢; rw [h1]; simp
        · simp at h1 ⊢; right; exact h1
      · intro x hx
        rcases List.mem_cons.1 hx with rfl | hx
        · simpa using h2
        · simpa using h3 x hx

example : getMin 8 (fromList [3, 1, 2]) = .ok 1 ∧ getMax 8 (fromList [3, 1, 2]) = .ok 3 := by
  decide

theorem C80_witness : getMin 8 (fromList []) = .ok 0 ∧ getMax 8 (fromList []) = .ok 0 := by decide

theorem C80_fails : ¬ C80_statement := by
  intro h
  have := h [] (by decide) 0 C80_witness.1
  simp at this

end Verif.Props

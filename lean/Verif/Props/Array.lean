import Verif.Lemmas.Array

/-! C23 (arrays as lists): /repo/grayc/src/runtime/array.c and stdlib/arrays.c. -/
namespace Verif.Props
open Verif Verif.Arr

variable {α : Type}

/-- One operation of a program on an array; indices and counts are language `int`s. -/
inductive ArrOp (α : Type) where
  | append (x : α)
  | prepend (x : α)
  | insertAt (i : Int) (x : α)
  | set (i : Int) (x : α)
  | removeAt (i : Int)
  | removeFirst
  | removeLast
  | clear
  | fill (x : α) (n : Int)
  | get (i : Int)
  | first
  | last

/-- The list operation each one stands for: the new list with the value read, or the error. -/
def listOp (xs : List α) : ArrOp α → Except String (List α × Option α)
  | .append x => .ok (xs ++ [x], none)
  | .prepend x => .ok (x :: xs, none)
  | .insertAt i x =>
    if 0 ≤ i ∧ i ≤ xs.length then .ok (xs.take i.toNat ++ x :: xs.drop i.toNat, none)
    else .error "P0043"
  | .set i x => if 0 ≤ i ∧ i < xs.length then .ok (xs.set i.toNat x, none) else .error "P0033"
  | .removeAt i =>
    if 0 ≤ i ∧ i < xs.length then .ok (xs.take i.toNat ++ xs.drop (i.toNat + 1), none)
    else .error "P0044"
  | .removeFirst =>
    match xs with
    | [] => .error "P0047"
    | x :: t => .ok (t, some x)
  | .removeLast =>
    match xs.getLast? with
    | none => .error "P0048"
    | some x => .ok (xs.dropLast, some x)
  | .clear => .ok ([], none)
  | .fill x n => .ok (List.replicate n.toNat x, none)
  | .get i =>
    if 0 ≤ i then
      match xs[i.toNat]? with
      | some x => .ok (xs, some x)
      | none => .error "P0033"
    else .error "P0033"
  | .first =>
    match xs.head? with
    | some x => .ok (xs, some x)
    | none => .error "P0045"
  | .last =>
    match xs.getLast? with
    | some x => .ok (xs, some x)
    | none => .error "P0046"

/-- The implementation's step. -/
def arrOp (esz : Nat) (a : GrayArray α) : ArrOp α → Outcome (GrayArray α × Option α)
  | .append x => do let b ← push a x; .ok (b, none)
  | .prepend x => do let b ← Arr.prepend a x; .ok (b, none)
  | .insertAt i x => do let b ← Arr.insertAt a i x; .ok (b, none)
  | .set i x => do let b ← Arr.set a i x; .ok (b, none)
  | .removeAt i => do let b ← Arr.removeAt a i; .ok (b, none)
  | .removeFirst => do let r ← Arr.removeFirst a; .ok (r.1, some r.2)
  | .removeLast => do let r ← Arr.removeLast esz a; .ok (r.1, some r.2)
  | .clear => do let b ← Arr.clear a; .ok (b, none)
  | .fill x n => do let b ← Arr.fill a x n; .ok (b, none)
  | .get i => do let x ← Arr.get a i; .ok (a, some x)
  | .first => do let x ← Arr.first a; .ok (a, some x)
  | .last => do let x ← Arr.last esz a; .ok (a, some x)

/-- Running a program of list operations, collecting the values read. -/
def listRun : List α → List (ArrOp α) → Except String (List α × List (Option α))
  | xs, [] => .ok (xs, [])
  | xs, op :: ops =>
    match listOp xs op with
    | .error c => .error c
    | .ok (ys, o) =>
      match listRun ys ops with
      | .error c => .error c
      | .ok (zs, os) => .ok (zs, o :: os)

def arrRun (esz : Nat) : GrayArray α → List (ArrOp α) → Outcome (GrayArray α × List (Option α))
  | a, [] => .ok (a, [])
  | a, op :: ops => do
    let r ← arrOp esz a op
    let s ← arrRun esz r.1 ops
    .ok (s.1, r.2 :: s.2)

/-- The implementation follows the list: same values read, same final contents, or the same
panic. -/
def FollowsList (esz : Nat) (xs : List α) (ops : List (ArrOp α)) : Prop :=
  match listRun xs ops with
  | .ok (ys, os) => ∃ a, arrRun esz (fromList xs) ops = .ok (a, os) ∧ Rep a ys
  | .error c => arrRun esz (fromList xs) ops = .panic c

/-- Indices and counts of an operation lie in the `int32_t` range. -/
def IndexFits : ArrOp α → Prop
  | .insertAt i _ => -2147483648 ≤ i ∧ i < 2147483648
  | .set i _ => -2147483648 ≤ i ∧ i < 2147483648
  | .removeAt i => -2147483648 ≤ i ∧ i < 2147483648
  | .get i => -2147483648 ≤ i ∧ i < 2147483648
  | .fill _ n => -2147483648 ≤ n ∧ n < 2147483648
  | _ => True

/-- Sizes the implementation can index and grow: fewer than 2^30 elements and fewer than 2^31
bytes. -/
def SizeFits (esz n : Nat) : Prop := n < 1073741824 ∧ n * esz ≤ int32Max

/-- The list has such a size before and after every operation of the run. -/
def SmallRun (esz : Nat) : List α → List (ArrOp α) → Prop
  | xs, [] => SizeFits esz xs.length
  | xs, op :: ops => SizeFits esz xs.length ∧
    match listOp xs op with
    | .error _ => True
    | .ok (ys, _) => SmallRun esz ys ops

/-- C23 as claimed: every program of operations, on an array of any size an array can have, whose
indices are language integers. -/
def C23_statement : Prop :=
  ∀ (esz : Nat) (xs : List Nat) (ops : List (ArrOp Nat)), 0 < esz → xs.length ≤ int32Max →
    FollowsList esz xs ops

theorem SmallRun.fits {esz : Nat} {xs : List α} {ops : List (ArrOp α)} (h : SmallRun esz xs ops) :
    SizeFits esz xs.length := by
  cases ops with
  | nil => exact h
  | cons op ops => exact h.1

/-- One step from related states. -/
theorem arrOp_step {esz : Nat} {a : GrayArray α} {xs : List α} (h : Rep a xs) (hi : a.iterating = 0)
    (hfit : SizeFits esz xs.length) (op : ArrOp α) (hf : IndexFits op)
    (hy : ∀ ys o, listOp xs op = .ok (ys, o) → SizeFits esz ys.length) :
    (∀ c, listOp xs op = .error c → arrOp esz a op = .panic c) ∧
    (∀ ys o, listOp xs op = .ok (ys, o) →
      ∃ b, arrOp esz a op = .ok (b, o) ∧ Rep b ys ∧ b.iterating = 0) := by
  have hlen := h.len_eq
  obtain ⟨hx, hbytes⟩ := hfit
  cases op with
  | append x =>
    refine ⟨fun c hc => by simp [listOp] at hc, fun ys o ho => ?_⟩
    simp only [listOp, Except.ok.injEq, Prod.mk.injEq] at ho
    obtain ⟨rfl, rfl⟩ := ho
    obtain ⟨b, hb, hr, hit⟩ := push_rep h hx hi x
    exact ⟨b, by simp [arrOp, hb], hr, hit⟩
  | prepend x =>
    refine ⟨fun c hc => by simp [listOp] at hc, fun ys o ho => ?_⟩
    simp only [listOp, Except.ok.injEq, Prod.mk.injEq] at ho
    obtain ⟨rfl, rfl⟩ := ho
    obtain ⟨b, hb, hr, hit⟩ := insertAt32_rep h hx hi 0 (by omega) x
    have hb' : insertAt32 a 0 x = .ok b := hb
    exact ⟨b, by simp [arrOp, Arr.prepend, hb'], by simpa using hr, hit⟩
  | insertAt i x =>
    have ht : toI32 i = i := toI32_of_range hf.1 hf.2
    by_cases hr : 0 ≤ i ∧ i ≤ xs.length
    · refine ⟨fun c hc => by simp [listOp, hr] at hc, fun ys o ho => ?_⟩
      simp only [listOp, if_pos hr, Except.ok.injEq, Prod.mk.injEq] at ho
      obtain ⟨rfl, rfl⟩ := ho
      obtain ⟨b, hb, hrep, hit⟩ := insertAt32_rep h hx hi i.toNat (by omega) x
      rw [Int.toNat_of_nonneg hr.1] at hb
      exact ⟨b, by simp [arrOp, Arr.insertAt, ht, hb], hrep, hit⟩
    · refine ⟨fun c hc => ?_, fun ys o ho => by simp [listOp, hr] at ho⟩
      simp only [listOp, if_neg hr, Except.error.injEq] at hc
      subst hc
      simp only [arrOp, Arr.insertAt, ht, insertAt32]
      rw [if_neg (by omega), if_pos (by omega)]
      rfl
  | set i x =>
    have ht : toI32 i = i := toI32_of_range hf.1 hf.2
    by_cases hr : 0 ≤ i ∧ i < xs.length
    · refine ⟨fun c hc => by simp [listOp, hr] at hc, fun ys o ho => ?_⟩
      simp only [listOp, if_pos hr, Except.ok.injEq, Prod.mk.injEq] at ho
      obtain ⟨rfl, rfl⟩ := ho
      obtain ⟨b, hb, hrep, hit⟩ := set_rep h hi i.toNat (by omega) i (by omega) x
      exact ⟨b, by simp [arrOp, hb], hrep, hit⟩
    · refine ⟨fun c hc => ?_, fun ys o ho => by simp [listOp, hr] at ho⟩
      simp only [listOp, if_neg hr, Except.error.injEq] at hc
      subst hc
      simp only [arrOp, Arr.set, ht]
      rw [if_neg (by omega), if_pos (by omega)]
      rfl
  | removeAt i =>
    have ht : toI32 i = i := toI32_of_range hf.1 hf.2
    by_cases hr : 0 ≤ i ∧ i < xs.length
    · refine ⟨fun c hc => by simp [listOp, hr] at hc, fun ys o ho => ?_⟩
      simp only [listOp, if_pos hr, Except.ok.injEq, Prod.mk.injEq] at ho
      obtain ⟨rfl, rfl⟩ := ho
      obtain ⟨b, hb, hrep, hit⟩ := removeAt32_rep h hi i.toNat (by omega)
      rw [Int.toNat_of_nonneg hr.1] at hb
      exact ⟨b, by simp [arrOp, Arr.removeAt, ht, hb], hrep, hit⟩
    · refine ⟨fun c hc => ?_, fun ys o ho => by simp [listOp, hr] at ho⟩
      simp only [listOp, if_neg hr, Except.error.injEq] at hc
      subst hc
      simp only [arrOp, Arr.removeAt, ht, removeAt32]
      rw [if_neg (by omega), if_pos (by omega)]
      rfl
  | removeFirst =>
    cases xs with
    | nil =>
      refine ⟨fun c hc => ?_, fun ys o ho => by simp [listOp] at ho⟩
      simp only [listOp, Except.error.injEq] at hc
      subst hc
      simp only [arrOp, Arr.removeFirst]
      rw [if_neg (by omega), if_pos (by simpa using hlen)]
      rfl
    | cons x t =>
      refine ⟨fun c hc => by simp [listOp] at hc, fun ys o ho => ?_⟩
      simp only [listOp, Except.ok.injEq, Prod.mk.injEq] at ho
      obtain ⟨rfl, rfl⟩ := ho
      obtain ⟨b, hb, hrep, hit⟩ := removeFirst_rep h hi
      exact ⟨b, by simp [arrOp, hb], hrep, hit⟩
  | removeLast =>
    by_cases hne : xs = []
    · subst hne
      refine ⟨fun c hc => ?_, fun ys o ho => by simp [listOp] at ho⟩
      simp only [listOp, List.getLast?_nil, Except.error.injEq] at hc
      subst hc
      simp only [arrOp, Arr.removeLast]
      rw [if_neg (by omega), if_pos (by simpa using hlen)]
      rfl
    · have hg : xs.getLast? = some (xs.getLast hne) := List.getLast?_eq_getLast hne
      refine ⟨fun c hc => by simp [listOp, hg] at hc, fun ys o ho => ?_⟩
      simp only [listOp, hg, Except.ok.injEq, Prod.mk.injEq] at ho
      obtain ⟨rfl, rfl⟩ := ho
      obtain ⟨b, hb, hrep, hit⟩ := removeLast_rep h hbytes hi hne
      exact ⟨b, by simp [arrOp, hb], hrep, hit⟩
  | clear =>
    refine ⟨fun c hc => by simp [listOp] at hc, fun ys o ho => ?_⟩
    simp only [listOp, Except.ok.injEq, Prod.mk.injEq] at ho
    obtain ⟨rfl, rfl⟩ := ho
    obtain ⟨b, hb, hrep, hit⟩ := clear_rep h hi
    exact ⟨b, by simp [arrOp, hb], hrep, hit⟩
  | fill x n =>
    have ht : toI32 n = n := toI32_of_range hf.1 hf.2
    refine ⟨fun c hc => by simp [listOp] at hc, fun ys o ho => ?_⟩
    have hn := (hy _ _ ho).1
    simp only [listOp, Except.ok.injEq, Prod.mk.injEq] at ho
    obtain ⟨rfl, rfl⟩ := ho
    obtain ⟨b, hb, hrep, hit⟩ := clear_rep h hi
    obtain ⟨c, hc, hrc, hic⟩ := pushTimes_rep x n.toNat hrep hit (by simp at hn ⊢; omega)
    refine ⟨c, ?_, by simpa using hrc, hic⟩
    simp [arrOp, Arr.fill, hb, ht, hc]
  | get i =>
    have ht : toI32 i = i := toI32_of_range hf.1 hf.2
    by_cases hr : 0 ≤ i ∧ i < xs.length
    · have hg : xs[i.toNat]? = some (xs[i.toNat]'(by omega)) := by
        rw [List.getElem?_eq_getElem]
      refine ⟨fun c hc => by simp [listOp, hr.1, hg] at hc, fun ys o ho => ?_⟩
      simp only [listOp, if_pos hr.1, hg, Except.ok.injEq, Prod.mk.injEq] at ho
      obtain ⟨rfl, rfl⟩ := ho
      exact ⟨a, by simp [arrOp, get_rep h i.toNat (by omega) i (by omega)], h, hi⟩
    · have hp : arrOp esz a (.get i) = .panic "P0033" := by
        simp only [arrOp, Arr.get, getPtr, ht]
        rw [if_pos (by omega)]
        rfl
      refine ⟨fun c hc => ?_, fun ys o ho => ?_⟩
      · rw [hp]
        by_cases h0 : 0 ≤ i
        · have : xs[i.toNat]? = none := by rw [List.getElem?_eq_none]; omega
          simp only [listOp, if_pos h0, this, Except.error.injEq] at hc
          rw [hc]
        · simp only [listOp, if_neg h0, Except.error.injEq] at hc
          rw [hc]
      · by_cases h0 : 0 ≤ i
        · have : xs[i.toNat]? = none := by rw [List.getElem?_eq_none]; omega
          simp [listOp, h0, this] at ho
        · simp [listOp, h0] at ho
  | first =>
    cases xs with
    | nil =>
      refine ⟨fun c hc => ?_, fun ys o ho => by simp [listOp] at ho⟩
      simp only [listOp, List.head?_nil, Except.error.injEq] at hc
      subst hc
      simp only [arrOp, Arr.first]
      rw [if_pos (by simpa using hlen)]
      rfl
    | cons x t =>
      refine ⟨fun c hc => by simp [listOp] at hc, fun ys o ho => ?_⟩
      simp only [listOp, List.head?_cons, Except.ok.injEq, Prod.mk.injEq] at ho
      obtain ⟨rfl, rfl⟩ := ho
      refine ⟨a, ?_, h, hi⟩
      simp only [arrOp, Arr.first]
      rw [if_neg (by simp at hlen; omega), cellAt_rep h (by simp)]
      rfl
  | last =>
    by_cases hne : xs = []
    · subst hne
      refine ⟨fun c hc => ?_, fun ys o ho => by simp [listOp] at ho⟩
      simp only [listOp, List.getLast?_nil, Except.error.injEq] at hc
      subst hc
      simp only [arrOp, Arr.last]
      rw [if_pos (by simpa using hlen)]
      rfl
    · have hg : xs.getLast? = some (xs.getLast hne) := List.getLast?_eq_getLast hne
      have hpos := List.length_pos_iff.2 hne
      refine ⟨fun c hc => by simp [listOp, hg] at hc, fun ys o ho => ?_⟩
      simp only [listOp, hg, Except.ok.injEq, Prod.mk.injEq] at ho
      obtain ⟨rfl, rfl⟩ := ho
      refine ⟨a, ?_, h, hi⟩
      simp only [arrOp, Arr.last]
      rw [if_neg (by omega), hlen, elemAt_rep h hbytes (by omega), List.getLast_eq_getElem]
      rfl

theorem arrRun_follows {esz : Nat} (ops : List (ArrOp α)) : ∀ {a : GrayArray α} {xs : List α}, Rep a xs →
    a.iterating = 0 → (∀ op ∈ ops, IndexFits op) → SmallRun esz xs ops →
    (∀ c, listRun xs ops = .error c → arrRun esz a ops = .panic c) ∧
    (∀ ys os, listRun xs ops = .ok (ys, os) → ∃ b, arrRun esz a ops = .ok (b, os) ∧ Rep b ys) := by
  induction ops with
  | nil =>
    intro a xs h _ _ _
    refine ⟨fun c hc => by simp [listRun] at hc, fun ys os ho => ?_⟩
    simp only [listRun, Except.ok.injEq, Prod.mk.injEq] at ho
    obtain ⟨rfl, rfl⟩ := ho
    exact ⟨a, rfl, h⟩
  | cons op ops ih =>
    intro a xs h hi hf hs
    have hy : ∀ ys o, listOp xs op = .ok (ys, o) → SmallRun esz ys ops := by
      intro ys o ho
      have := hs.2
      rwa [ho] at this
    obtain ⟨s1, s2⟩ := arrOp_step h hi hs.1 op (hf op (by simp)) fun ys o ho => (hy ys o ho).fits
    cases hop : listOp xs op with
    | error c =>
      refine ⟨fun d hd => ?_, fun ys os ho => by simp [listRun, hop] at ho⟩
      simp only [listRun, hop, Except.error.injEq] at hd
      subst hd
      rw [arrRun, s1 c hop]
      rfl
    | ok r =>
      obtain ⟨ys, o⟩ := r
      obtain ⟨b, hb, hrb, hib⟩ := s2 ys o hop
      obtain ⟨i1, i2⟩ := ih hrb hib (fun op h => hf op (by simp [h])) (hy ys o hop)
      cases hrun : listRun ys ops with
      | error c =>
        refine ⟨fun d hd => ?_, fun zs os ho => by simp [listRun, hop, hrun] at ho⟩
        simp only [listRun, hop, hrun, Except.error.injEq] at hd
        subst hd
        rw [arrRun, hb]
        simp only [Outcome.bind_ok]
        rw [i1 c hrun]
        rfl
      | ok q =>
        obtain ⟨zs, os⟩ := q
        refine ⟨fun d hd => by simp [listRun, hop, hrun] at hd, fun ws os' ho => ?_⟩
        simp only [listRun, hop, hrun, Except.ok.injEq, Prod.mk.injEq] at ho
        obtain ⟨rfl, rfl⟩ := ho
        obtain ⟨c, hc, hrc⟩ := i2 zs os hrun
        refine ⟨c, ?_, hrc⟩
        rw [arrRun, hb]
        simp only [Outcome.bind_ok, hc]

/-- Every program of array operations whose indices are in the `int32_t` range and whose arrays
stay below 2^30 elements and 2^31 bytes does what the list operations do: same values, same contents, the same
panic, and never an access outside the storage. Missing for the full claim: indices outside the
`int32_t` range are reduced modulo 2^32 (`C23_index_witness`), an array that fills 2^30 or more
cells cannot grow (`C23_capacity_witness`), and the last element of an array of more than 2^31
bytes cannot be reached with get_last (`C23_bytes_witness`). -/
theorem C23_partial (esz : Nat) (xs : List α) (ops : List (ArrOp α)) (hf : ∀ op ∈ ops, IndexFits op)
    (hs : SmallRun esz xs ops) : FollowsList esz xs ops := by
  have hM : int32Max = 2147483647 := rfl
  have h := rep_fromList xs (by have := hs.fits.1; omega)
  obtain ⟨h1, h2⟩ := arrRun_follows ops h rfl hf hs
  unfold FollowsList
  cases hr : listRun xs ops with
  | error c => exact h1 c hr
  | ok q => exact h2 q.1 q.2 hr

/-- Non-vacuity: a program with growth, shifts and reads. -/
example : listRun [1, 2, 3] [.append 4, .append 5, .insertAt 1 9, .removeAt 0, .removeLast, .get 3,
    .prepend 7, .set 0 8] = .ok ([8, 9, 2, 3, 4], [none, none, none, none, some 5, some 4, none,
    none]) := by rfl

example : FollowsList 8 [1, 2, 3] [.append 4, .append 5, .insertAt 1 9, .removeAt 0, .removeLast,
    .get 3, .prepend 7, .set 0 8] :=
  C23_partial _ _ _ (by simp [IndexFits]) (by simp [SmallRun, listOp, SizeFits, int32Max])

/-- `a[4294967296]` on a one-element array reads element 0. -/
theorem C23_index_witness : arrOp 8 (fromList [7]) (.get 4294967296) =
    .ok (fromList [7], some 7) := by decide

/-- `arrays.remove_at(a, 4294967297)` removes element 1. -/
theorem C23_remove_witness : ∃ a, arrOp 8 (fromList [7, 8]) (.removeAt 4294967297) = .ok (a, none) ∧
    Rep a [7] := by
  refine ⟨_, rfl, [some 8], ?_, ?_, ?_⟩ <;> decide

theorem C23_fails : ¬ C23_statement := by
  intro h
  have := h 8 [7] [.get 4294967296] (by decide) (by decide)
  have he : listRun [7] [ArrOp.get 4294967296] = .error "P0033" := rfl
  unfold FollowsList at this
  rw [he] at this
  simp [arrRun, C23_index_witness] at this

/-- Appending to an array whose block is full at 2^30 elements or more is undefined: the new
capacity overflows `int32_t` before it is tested. -/
theorem C23_capacity_witness (xs : List α) (x : α) (h : 1073741824 ≤ xs.length) :
    arrOp 8 (fromList xs) (.append x) = .ub := by
  have hM : int32Max = 2147483647 := rfl
  have hm : minCap = 4 := rfl
  have hp : 0 < xs.length := by omega
  have hc : (fromList xs).cap = xs.length := by simp [fromList, GrayArray.cap, hp]
  have hg : grow (fromList xs) = .ub := by
    rw [grow, hc, if_neg (by simp [fromList]), if_neg (by omega), if_pos (by omega)]
  simp only [arrOp, push]
  rw [if_neg (by simp [fromList]), hg]
  rfl

example : ∃ xs : List Nat, 1073741824 ≤ xs.length ∧ xs.length ≤ int32Max :=
  ⟨List.replicate 1073741824 0, by rw [List.length_replicate]; exact Nat.le_refl _, by rw [List.length_replicate]; decide⟩

/-- get_last and remove_last on an array of more than 2^31 bytes are undefined: the offset of the
element is computed in `int32_t`. -/
theorem C23_bytes_witness (esz : Nat) (a : GrayArray α) (hi : a.iterating = 0) (h0 : 0 < a.len)
    (h : int32Max < (a.len - 1) * esz) :
    arrOp esz a .last = .ub ∧ arrOp esz a .removeLast = .ub := by
  constructor
  · simp only [arrOp, Arr.last, elemAt]
    rw [if_neg (by omega), if_pos h]
    rfl
  · simp only [arrOp, Arr.removeLast, elemAt]
    rw [if_neg (by omega), if_neg (by omega), if_pos h]
    rfl

/-- Non-vacuity: 2^28 + 1 integers. -/
example : ∃ xs : List Int, xs.length ≤ int32Max ∧ int32Max < ((fromList xs).len - 1) * 8 := by
  obtain ⟨xs, h⟩ : ∃ xs : List Int, xs.length = 268435457 :=
    ⟨List.replicate 268435457 0, List.length_replicate⟩
  have hl : (fromList xs).len = xs.length := rfl
  have hM : int32Max = 2147483647 := rfl
  exact ⟨xs, by omega, by omega⟩

/-- The operation changes the array. -/
def Mutates : ArrOp α → Prop
  | .get _ => False
  | .first => False
  | .last => False
  | _ => True

/-- While a for_each runs over the array, every operation that would change it panics with P0034
and every read works as usual. -/
theorem C23_locked (esz : Nat) (a : GrayArray α) (hi : 0 < a.iterating) (op : ArrOp α) (hm : Mutates op) :
    arrOp esz a op = .panic "P0034" := by
  cases op <;>
    simp [Mutates, arrOp, push, Arr.prepend, Arr.insertAt, insertAt32, Arr.set, Arr.removeAt,
      removeAt32, Arr.removeFirst, Arr.removeLast, Arr.clear, Arr.fill, hi] at hm ⊢ <;> rfl

example : Mutates (.append 1 : ArrOp Nat) := trivial

/-! ### C81: appending while iterating -/

/-- The loop body `arrays.append(a, f x)`. -/
def appendBody (f : α → α) : Body α := fun a x => do
  let b ← push a (f x)
  .ok (b, Exit.next)

/-- STANDARD 6.3.2: appending inside for_each is safe, the new elements are not visited, and the
array holds them after the loop. -/
def C81_statement : Prop :=
  ∀ (xs : List Nat) (f : Nat → Nat), xs.length < 536870912 →
    ∃ a, forEach (appendBody f) (fromList xs) = .ok (a, .next) ∧ Rep a (xs ++ xs.map f)

/-- On every non-empty array the program stops with P0034 at the first append. -/
theorem C81_witness (xs : List α) (f : α → α) (hne : xs ≠ []) (hx : xs.length < 1073741824) :
    forEach (appendBody f) (fromList xs) = .panic "P0034" := by
  have hM : int32Max = 2147483647 := rfl
  have hpos := List.length_pos_iff.2 hne
  have key : ∀ (a : GrayArray α) (n : Nat), Rep a xs → 0 < a.iterating →
      eachLoop (appendBody f) (n + 1) 0 a = .panic "P0034" := by
    intro a n hr hi
    rw [eachLoop, show ((0 : Nat) : Int) = 0 from rfl, get_rep hr 0 hpos 0 (by decide)]
    simp only [Outcome.bind_ok, appendBody, push]
    rw [if_pos hi]
    rfl
  have hr : Rep ({ fromList xs with iterating := (fromList xs).iterating + 1 } : GrayArray α)
      xs := by
    obtain ⟨r, h1, h2, h3⟩ := rep_fromList xs (by omega)
    exact ⟨r, h1, h2, h3⟩
  have hlen : (fromList xs).len = (xs.length - 1) + 1 := by
    show xs.length = _
    omega
  unfold forEach
  have e : eachLoop (appendBody f) (fromList xs).len 0
      { fromList xs with iterating := (fromList xs).iterating + 1 } = .panic "P0034" := by
    generalize hb : ({ fromList xs with iterating := (fromList xs).iterating + 1 } : GrayArray α)
      = b at hr
    rw [hlen]
    exact key b _ hr (by rw [← hb]; exact Nat.succ_pos _)
  rw [e]
  rfl

theorem C81_fails : ¬ C81_statement := by
  intro h
  obtain ⟨a, ha, _⟩ := h [1] id (by decide)
  rw [C81_witness [1] id (by simp) (by decide)] at ha
  simp at ha

theorem eachLoop_reads (body : Body α) {xs : List α} (hx : xs.length ≤ int32Max)
    (hb : ∀ a x, Rep a xs → ∃ b, body a x = .ok (b, .next) ∧ Rep b xs ∧ b.iterating = a.iterating)
    (n : Nat) : ∀ (i : Nat) (a : GrayArray α), i + n = xs.length → Rep a xs →
      ∃ b, eachLoop body n i a = .ok (b, .next) ∧ Rep b xs ∧ b.iterating = a.iterating := by
  induction n with
  | zero => intro i a _ h; exact ⟨a, rfl, h, rfl⟩
  | succ n ih =>
    intro i a hi h
    have hM : int32Max = 2147483647 := rfl
    rw [eachLoop, get_rep h i (by omega) i (toI32_of_range (by omega) (by omega))]
    obtain ⟨b, hb1, hb2, hb3⟩ := hb a (xs[i]'(by omega)) h
    obtain ⟨c, hc, hrc, hic⟩ := ih (i + 1) b (by omega) hb2
    refine ⟨c, ?_, hrc, by omega⟩
    simp only [Outcome.bind_ok, hb1]
    exact hc

/-- A for_each whose body leaves the array alone visits it to the end and leaves it unlocked with
its contents. Missing for the full claim: a body that appends (`C81_witness`). -/
theorem C81_partial (body : Body α) (a : GrayArray α) (xs : List α) (h : Rep a xs)
    (hb : ∀ a x, Rep a xs → ∃ b, body a x = .ok (b, .next) ∧ Rep b xs ∧
      b.iterating = a.iterating) :
    ∃ b, forEach body a = .ok (b, .next) ∧ Rep b xs ∧ b.iterating = a.iterating := by
  have h' : Rep ({ a with iterating := a.iterating + 1 } : GrayArray α) xs := by
    obtain ⟨r, h1, h2, h3⟩ := h
    exact ⟨r, h1, h2, h3⟩
  obtain ⟨b, hb1, ⟨r, r1, r2, r3⟩, hb3⟩ :=
    eachLoop_reads body h.le hb a.len 0 _ (by have := h.len_eq; omega) h'
  unfold forEach
  rw [hb1]
  exact ⟨_, rfl, ⟨r, r1, r2, r3⟩, by simp [hb3]⟩

example : ∃ b, forEach (fun a _ => .ok (a, Exit.next)) (fromList [1, 2, 3]) = .ok (b, .next) ∧
    Rep b [1, 2, 3] ∧ b.iterating = 0 :=
  C81_partial _ _ _ (rep_fromList _ (by decide)) fun a _ h => ⟨a, rfl, h, rfl⟩

/-- An array that a for_each over it leaves through `return` stays locked (the array half of
C72). -/
theorem C72_array_witness : ∃ a, forEach (fun a _ => .ok (a, Exit.ret)) (fromList [1]) =
    .ok (a, .ret) ∧ arrOp 8 a (.append 2) = .panic "P0034" :=
  ⟨_, rfl, by decide⟩

end Verif.Props

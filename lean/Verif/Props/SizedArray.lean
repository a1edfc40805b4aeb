import Verif.Lemmas.SizedArray

/-! C82–C87: arrays of the element types that are not 8-byte integers. -/
namespace Verif.Props
open Verif Verif.SizedArr

/-! ### C82: an element read is the element appended -/

/-- C82 as claimed: for every integer element type, reading position `i` of an array declared empty
and filled by append yields the `i`-th value (as a 64-bit number). -/
def C82_statement : Prop :=
  ∀ (t : IntTy) (vs : List Int), (∀ v ∈ vs, t.inRange v) →
    ∃ a, appendAll (declareEmpty t) vs = .ok a ∧
      ∀ (i : Nat) (h : i < vs.length), ∃ r k : Int, index a i = .ok r ∧ r = vs[i] + k * 2 ^ 64

/-- It holds for the 8-byte element types. Missing for the full claim: element types of 1, 2 and 4
bytes, which are stored in their own size and read as `int64_t` (`C82_witness`). -/
theorem C82_partial (t : IntTy) (ht : t.size = 8) (vs : List Int) :
    ∃ a, appendAll (declareEmpty t) vs = .ok a ∧
      ∀ (i : Nat) (h : i < vs.length), ∃ r k : Int, index a i = .ok r ∧ r = vs[i] + k * 2 ^ 64 := by
  have he : (declareEmpty t).esz = 8 := ht
  obtain ⟨a, ha, hr, hesz⟩ := pushAll_repB (vs.map (leBytes 8)) (repB_new t.size 4)
    (fun o ho => by
      obtain ⟨v, _, rfl⟩ := List.mem_map.1 ho
      rw [length_leBytes]; exact Nat.le_of_eq he)
  refine ⟨a, by rw [appendAll_eq]; exact ha, fun i h => ?_⟩
  have hg := get_repB hr i (by simpa using h)
  rw [hesz, show (SizedArr.new t.size 4).esz = 8 from he] at hg
  obtain ⟨k, hk⟩ := leInt_leBytes_mod vs[i]
  have hi : index a (i : Int) = .ok (leInt (leBytes 8 vs[i])) := by
    rw [index, hg]
    simp only [Outcome.bind_ok, List.nil_append, List.getElem_map]
    rw [List.take_of_length_le (by rw [length_leBytes])]
  exact ⟨_, k, hi, hk⟩

/-- A value that fits in `int` is read back exactly. -/
theorem leInt_exact {v : Int} (h1 : -2 ^ 63 ≤ v) (h2 : v < 2 ^ 63) : leInt (leBytes 8 v) = v := by
  obtain ⟨k, hk⟩ := leInt_leBytes_mod v
  have hb := leNat_lt (leBytes 8 v)
  rw [length_leBytes] at hb
  have hr : -2 ^ 63 ≤ leInt (leBytes 8 v) ∧ leInt (leBytes 8 v) < 2 ^ 63 := by
    unfold leInt
    rw [length_leBytes]
    split <;> omega
  omega

example : ∃ a, appendAll (declareEmpty .int) [5, -7] = .ok a ∧ index a 1 = .ok (-7) :=
  ⟨_, rfl, by decide⟩

/-- `mut a [i32] = {}`, append 0, append 1: `a[0]` is 4294967296; for `i16` it is 65536, and for
one-byte types the read leaves the four-byte block. -/
theorem C82_witness (t : IntTy) (ht : t.size ≠ 8) :
    ∃ a, appendAll (declareEmpty t) [0, 1] = .ok a ∧
      index a 0 = if t.size = 1 then .ub else .ok (2 ^ (8 * t.size)) := by
  cases t <;> first | exact absurd rfl ht | exact ⟨_, rfl, by decide⟩

example : (IntTy.i32).size ≠ 8 := by decide

/-- With four elements in the initial block, reading the last one leaves the block. -/
theorem C82_overread_witness (t : IntTy) (ht : t.size ≠ 8) :
    ∃ a, appendAll (declareEmpty t) [1, 2, 3, 4] = .ok a ∧ index a 3 = .ub := by
  cases t <;> first | exact absurd rfl ht | exact ⟨_, rfl, by decide⟩

/-- The read starts at the element's own offset: in a `[i32]` holding 0, 1, 2 the element at 1 is
read together with its right neighbour. -/
theorem C82_offset_witness : ∃ a, appendAll (declareEmpty .i32) [0, 1, 2] = .ok a ∧
    index a 1 = .ok (1 + 2 * 2 ^ 32) := ⟨_, rfl, by decide⟩

/-- Positions outside the array are rejected for every element type. -/
theorem C82_bounds (a : BArr) (i : Int) (h : i < 0 ∨ (a.len : Int) ≤ i) :
    index a i = .panic "P0033" := by
  rw [index, SizedArr.get, if_pos h]
  rfl

example : ((declareEmpty .i32).len : Int) ≤ 0 := by decide

theorem C82_fails : ¬ C82_statement := by
  intro h
  obtain ⟨a, ha, hi⟩ := h .i32 [0, 1] (by simp [IntTy.inRange, IntTy.signed, IntTy.size])
  obtain ⟨r, k, hr, hk⟩ := hi 0 (by simp)
  obtain ⟨b, hb, hb0⟩ := C82_witness .i32 (by decide)
  rw [ha] at hb
  cases hb
  have h0 : index a ((0 : Nat) : Int) = index a 0 := rfl
  rw [h0, hb0, if_neg (by decide)] at hr
  have hr' : r = 2 ^ 32 := by cases hr; rfl
  simp only [List.getElem_cons_zero] at hk
  omega

/-! ### C83: an element read is the element assigned -/

/-- C83 as claimed: after `a[i] = v` on an array initialised with a literal, `a[i]` is `v` and the
other elements keep their values. -/
def C83_statement : Prop :=
  ∀ (t : IntTy) (vs : List Int) (v : Int) (i : Nat), (∀ x ∈ vs, t.inRange x) → t.inRange v →
    i < vs.length → ∃ b, assign t (declareLit vs) i v = .ok b ∧
      ∀ (j : Nat) (h : j < (vs.set i v).length), ∃ r k : Int,
        index b j = .ok r ∧ r = (vs.set i v)[j] + k * 2 ^ 64

theorem repB_lit (vs : List Int) : RepB (declareLit vs) (vs.map (leBytes 8)) := by
  have h := repB_fromBytes 8 (vs.map (leBytes 8)) (fun o ho => by
    obtain ⟨v, _, rfl⟩ := List.mem_map.1 ho
    exact length_leBytes 8 v)
  rw [List.length_map] at h
  rw [declareLit, List.flatMap_def]
  exact h

/-- It holds for the 8-byte element types. Missing for the full claim: for narrower ones the
assignment reads 8 bytes from a smaller variable (`C83_witness`). -/
theorem C83_partial (t : IntTy) (ht : t.size = 8) (vs : List Int) (v : Int) (i : Nat)
    (hi : i < vs.length) : ∃ b, assign t (declareLit vs) i v = .ok b ∧
      ∀ (j : Nat) (h : j < (vs.set i v).length), ∃ r k : Int,
        index b j = .ok r ∧ r = (vs.set i v)[j] + k * 2 ^ 64 := by
  have he : (declareLit vs).esz = 8 := rfl
  obtain ⟨b, hb, hr, hesz⟩ := set_repB (repB_lit vs) i (by simpa using hi) (leBytes 8 v)
    (by rw [length_leBytes, he])
  refine ⟨b, by rw [assign, ht]; exact hb, fun j h => ?_⟩
  rw [← List.map_set] at hr
  have hg := get_repB hr j (by simpa using h)
  rw [hesz, he] at hg
  obtain ⟨k, hk⟩ := leInt_leBytes_mod (vs.set i v)[j]
  refine ⟨_, k, ?_, hk⟩
  rw [index, hg]
  simp only [Outcome.bind_ok, List.getElem_map]

example : ∃ b, assign .int (declareLit [1, 2, 3]) 1 9 = .ok b ∧ index b 1 = .ok 9 ∧
    index b 2 = .ok 3 := ⟨_, rfl, by decide, by decide⟩

/-- On a literal array of a narrow type every element assignment over-reads its value. -/
theorem C83_witness (t : IntTy) (ht : t.size ≠ 8) (vs : List Int) (v : Int) (i : Nat)
    (hi : i < vs.length) : assign t (declareLit vs) i v = .ub := by
  have hl : (declareLit vs).len = vs.length := rfl
  have he : (declareLit vs).esz = 8 := rfl
  have hs : t.size < 8 := by cases t <;> simp [IntTy.size] at ht ⊢
  rw [assign, SizedArr.set, if_neg (by omega), store, if_neg]
  rw [length_leBytes, he]
  omega

theorem C83_fails : ¬ C83_statement := by
  intro h
  obtain ⟨b, hb, _⟩ := h .i32 [1] 2 0 (by simp [IntTy.inRange, IntTy.signed, IntTy.size])
    (by simp [IntTy.inRange, IntTy.signed, IntTy.size]) (by simp)
  rw [C83_witness .i32 (by decide) [1] 2 0 (by simp)] at hb
  simp at hb

/-! ### C84: contains on every element type -/

/-- C84 as claimed, for arrays of `char` and of `bool`. -/
def C84_statement : Prop :=
  (∀ (cs : List Int) (c : Int), (∀ x ∈ cs, 0 ≤ x ∧ x < 1114112) → 0 ≤ c ∧ c < 1114112 →
    containsInt (charLit cs) c = .ok (decide (c ∈ cs))) ∧
  (∀ (bs : List Bool) (b : Bool),
    containsInt (boolLit bs) (if b then 1 else 0) = .ok (decide (b ∈ bs)))

/-- `arrays.contains({'a', 'b'}, 'a')`: the first eight bytes hold both characters and do not equal
`'a'`; the second read leaves the block. -/
theorem C84_char_witness : containsInt (charLit [97, 98]) 97 = .ub := by decide

/-- `arrays.contains({true, …, true}, false)` with eight elements. -/
theorem C84_bool_witness :
    containsInt (boolLit [true, true, true, true, true, true, true, true]) false.toNat = .ub := by
  decide

theorem containsIntLoop_repB {a : BArr} {vs : List Int} (h : RepB a (vs.map (leBytes 8)))
    (he : a.esz = 8) (hv : ∀ x ∈ vs, -2 ^ 63 ≤ x ∧ x < 2 ^ 63) (v : Int) (n : Nat) :
    ∀ i, i + n = vs.length → containsIntLoop a v n i = .ok (decide (v ∈ vs.drop i)) := by
  induction n with
  | zero =>
    intro i hi
    rw [containsIntLoop, List.drop_of_length_le (by omega)]
    simp
  | succ n ih =>
    intro i hi
    have hlt : i < vs.length := by omega
    have hg := get_repB h i (by simpa using hlt)
    have hlen : a.len = vs.length := by simpa using h.2.2.1
    rw [SizedArr.get, if_neg (by omega), show (i : Int).toNat = i by simp] at hg
    rw [containsIntLoop, he]
    rw [he] at hg
    rw [hg]
    simp only [Outcome.bind_ok, List.getElem_map]
    have hx := hv vs[i] (List.getElem_mem hlt)
    rw [leInt_exact hx.1 hx.2, ih (i + 1) (by omega), List.drop_eq_getElem_cons hlt]
    by_cases hc : vs[i] = v
    · simp [hc]
    · rw [if_neg hc]
      have hne : v ≠ vs[i] := fun h => hc h.symm
      congr 1
      rw [Bool.eq_iff_iff, decide_eq_true_eq, decide_eq_true_eq, List.mem_cons]
      exact ⟨Or.inr, fun h => h.resolve_left hne⟩

/-- contains is membership on integer arrays stored in 8 bytes. Missing for the full claim: every
element type of another size except `string` (`C84_char_witness`, `C84_bool_witness`), and
`float`, whose argument is converted to an integer. -/
theorem C84_partial (vs : List Int) (hv : ∀ x ∈ vs, -2 ^ 63 ≤ x ∧ x < 2 ^ 63) (v : Int) :
    containsInt (declareLit vs) v = .ok (decide (v ∈ vs)) := by
  have := containsIntLoop_repB (repB_lit vs) rfl hv v vs.length 0 (by omega)
  rw [List.drop_zero] at this
  exact this

example : containsInt (declareLit [1, -2, 3]) (-2) = .ok true := by decide

theorem C84_fails : ¬ C84_statement := by
  intro h
  have := h.1 [97, 98] 97 (by decide) (by decide)
  rw [C84_char_witness] at this
  simp at this

/-! ### C85: is_equal -/

/-- C85 as claimed: is_equal is equality of the sequences of values, however the arrays were
built. -/
def C85_statement : Prop :=
  ∀ (t : IntTy) (vs ws : List Int), (∀ v ∈ vs, t.inRange v) → (∀ w ∈ ws, t.inRange w) →
    ∃ a, appendAll (declareEmpty t) vs = .ok a ∧
      isEqualPrim a (declareLit ws) = decide (vs = ws)

theorem take_repB {a : BArr} {objs : List (List Byte)} (h : RepB a objs) :
    a.data.take (a.len * a.esz) = objs.flatten := by
  obtain ⟨⟨rest, h1⟩, h2, h3, _, _⟩ := h
  rw [h1, h3, ← flatten_length h2, List.take_left']
  rfl

theorem flatten_inj {n : Nat} (hn : 0 < n) : ∀ {xs ys : List (List Byte)},
    (∀ o ∈ xs, o.length = n) → (∀ o ∈ ys, o.length = n) → xs.flatten = ys.flatten → xs = ys := by
  intro xs
  induction xs with
  | nil =>
    intro ys _ hy h
    cases ys with
    | nil => rfl
    | cons y ys =>
      have := hy y (by simp)
      have hl := congrArg List.length h
      simp only [List.flatten_nil, List.length_nil, List.flatten_cons, List.length_append] at hl
      omega
  | cons x xs ih =>
    intro ys hx hy h
    cases ys with
    | nil =>
      have := hx x (by simp)
      have hl := congrArg List.length h
      simp only [List.flatten_nil, List.length_nil, List.flatten_cons, List.length_append] at hl
      omega
    | cons y ys =>
      rw [List.flatten_cons, List.flatten_cons] at h
      have hxy := List.append_inj h (by rw [hx x (by simp), hy y (by simp)])
      rw [hxy.1, ih (fun o ho => hx o (by simp [ho])) (fun o ho => hy o (by simp [ho])) hxy.2]

/-- is_equal on two arrays with the same element size is equality of the element bytes. Missing for
the full claim: arrays of one narrow type built in different ways have different element sizes and
are never equal (`C85_witness`); floats, where byte equality is not `==` (`C85_float_witness`). -/
theorem C85_partial (a b : BArr) (xs ys : List (List Byte)) (ha : RepB a xs) (hb : RepB b ys)
    (he : a.esz = b.esz) (hpos : 0 < a.esz) : isEqualPrim a b = decide (xs = ys) := by
  have hla : a.len = xs.length := ha.2.2.1
  have hlb : b.len = ys.length := hb.2.2.1
  unfold isEqualPrim
  by_cases hl : a.len = b.len
  · rw [if_neg (by simpa using hl), if_neg (by simpa using he)]
    by_cases h0 : a.len = 0
    · rw [if_pos h0]
      have hx : xs = [] := List.length_eq_zero_iff.1 (by omega)
      have hy : ys = [] := List.length_eq_zero_iff.1 (by omega)
      simp [hx, hy]
    · rw [if_neg h0, take_repB ha]
      have e : b.data.take (a.len * a.esz) = ys.flatten := by rw [hl, he]; exact take_repB hb
      rw [e, Bool.eq_iff_iff]
      simp only [beq_iff_eq, decide_eq_true_eq]
      exact ⟨flatten_inj hpos ha.2.1 (by rw [he]; exact hb.2.1), fun h => by rw [h]⟩
  · rw [if_pos (by simpa using hl)]
    symm
    rw [decide_eq_false_iff_not]
    intro h
    apply hl
    rw [hla, hlb, h]

example : isEqualPrim (declareLit [1, 2]) (declareLit [1, 2]) = true ∧
    isEqualPrim (declareLit [1, 2]) (declareLit [2, 1]) = false := by decide

/-- `mut a [i32] = {}`, append 1, compared with `{1}`: not equal, for every narrow type. -/
theorem C85_witness (t : IntTy) (ht : t.size ≠ 8) : ∃ a, appendAll (declareEmpty t) [1] = .ok a ∧
    isEqualPrim a (declareLit [1]) = false := by
  cases t <;> first | exact absurd rfl ht | exact ⟨_, rfl, by decide⟩

/-- 0.0 and -0.0 are equal floats with different bytes. -/
theorem C85_float_witness :
    isEqualPrim (fromBytes 8 (leBytes 8 0) 1) (fromBytes 8 (leBytes 8 (2 ^ 63)) 1) = false := by
  decide

theorem C85_fails : ¬ C85_statement := by
  intro h
  obtain ⟨a, ha, he⟩ := h .i32 [1] [1] (by simp [IntTy.inRange, IntTy.signed, IntTy.size])
    (by simp [IntTy.inRange, IntTy.signed, IntTy.size])
  obtain ⟨b, hb, hf⟩ := C85_witness .i32 (by decide)
  rw [ha] at hb
  cases hb
  rw [hf] at he
  simp at he

/-! ### C86: flatten -/

/-- C86 as claimed: flatten holds the elements of the inner arrays in order, whatever the element
size. -/
def C86_statement : Prop :=
  ∀ (esz : Nat) (inners : List (List (List Byte))), 0 < esz →
    (∀ o ∈ inners.flatten, o.length = esz) →
    ∃ r, flatten (inners.map fun objs => fromBytes esz objs.flatten objs.length) = .ok r ∧
      r.esz = esz ∧ RepB r inners.flatten

theorem flattenInner_repB {a : BArr} {objs : List (List Byte)} (h : RepB a objs) (he : a.esz = 8)
    (n : Nat) : ∀ (j : Nat) (r : BArr) (rs : List (List Byte)), j + n = objs.length → RepB r rs →
    r.esz = 8 → ∃ r', flattenInner a n j r = .ok r' ∧ RepB r' (rs ++ objs.drop j) ∧ r'.esz = 8 := by
  induction n with
  | zero =>
    intro j r rs hj hr hre
    exact ⟨r, rfl, by rw [List.drop_of_length_le (by omega)]; simpa using hr, hre⟩
  | succ n ih =>
    intro j r rs hj hr hre
    have hlt : j < objs.length := by omega
    have hg := get_repB h j hlt
    have hlen : a.len = objs.length := h.2.2.1
    rw [SizedArr.get, if_neg (by omega), show (j : Int).toNat = j by simp] at hg
    have ho : objs[j].length = 8 := by rw [← he]; exact h.2.1 _ (List.getElem_mem hlt)
    obtain ⟨r1, h1, hr1, he1⟩ := push_repB hr objs[j] (by omega)
    rw [hre] at hr1 he1
    rw [List.take_of_length_le (by omega)] at hr1
    obtain ⟨r2, h2, hr2, he2⟩ := ih (j + 1) r1 _ (by omega) hr1 he1
    refine ⟨r2, ?_, ?_, he2⟩
    · rw [flattenInner]
      rw [he] at hg ⊢
      rw [hg]
      simp only [Outcome.bind_ok, h1, h2]
    · rw [List.drop_eq_getElem_cons hlt]
      simpa using hr2

theorem flattenLoop_repB (inners : List (List (List Byte)))
    (hi : ∀ objs ∈ inners, ∀ o ∈ objs, o.length = 8) : ∀ (r : BArr) (rs : List (List Byte)),
    RepB r rs → r.esz = 8 →
    ∃ r', flattenLoop (inners.map fun objs => fromBytes 8 objs.flatten objs.length) r = .ok r' ∧
      RepB r' (rs ++ inners.flatten) ∧ r'.esz = 8 := by
  induction inners with
  | nil => intro r rs hr he; exact ⟨r, rfl, by simpa using hr, he⟩
  | cons objs rest ih =>
    intro r rs hr he
    have hrep := repB_fromBytes 8 objs (hi objs (by simp))
    obtain ⟨r1, h1, hr1, he1⟩ := flattenInner_repB hrep rfl objs.length 0 r rs (by omega) hr he
    obtain ⟨r2, h2, hr2, he2⟩ := ih (fun o ho => hi o (by simp [ho])) r1 _ hr1 he1
    refine ⟨r2, ?_, by simpa using hr2, he2⟩
    rw [List.map_cons, flattenLoop]
    have h1' : flattenInner (fromBytes 8 objs.flatten objs.length)
        (fromBytes 8 objs.flatten objs.length).len 0 r = .ok r1 := h1
    rw [h1']
    exact h2

/-- flatten on inner arrays of 8-byte elements. Missing for the full claim: every other element
size, strings included (`C86_string_witness`, `C86_bool_witness`). -/
theorem C86_partial (inners : List (List (List Byte)))
    (hi : ∀ objs ∈ inners, ∀ o ∈ objs, o.length = 8) :
    ∃ r, flatten (inners.map fun objs => fromBytes 8 objs.flatten objs.length) = .ok r ∧
      r.esz = 8 ∧ RepB r inners.flatten := by
  obtain ⟨r, h1, h2, h3⟩ := flattenLoop_repB inners hi (SizedArr.new 8 8) [] (repB_new 8 8) rfl
  exact ⟨r, h1, h3, by simpa using h2⟩

set_option maxRecDepth 100000 in
example : ∃ r, flatten [declareLit [1, 2], declareLit [], declareLit [3]] = .ok r ∧ r.len = 3 ∧
    index r 2 = .ok 3 := ⟨_, rfl, by decide, by decide⟩

set_option maxRecDepth 100000 in
/-- Two one-element arrays of strings, (pointer 4096, length 1) and (pointer 8192, length 2): the
first element of the result, read as a 16-byte string, is (pointer 4096, length 8192). -/
theorem C86_string_witness : ∃ r,
    flatten [fromBytes 16 (leBytes 8 4096 ++ leBytes 8 1) 1,
      fromBytes 16 (leBytes 8 8192 ++ leBytes 8 2) 1] = .ok r ∧
    r.esz = 8 ∧ SizedArr.get r 16 0 = .ok (leBytes 8 4096 ++ leBytes 8 8192) :=
  ⟨_, rfl, by decide, by decide⟩

/-- An inner array of one `bool`: eight bytes are read from a one-byte block. -/
theorem C86_bool_witness : flatten [boolLit [true]] = .ub := by decide

theorem C86_fails : ¬ C86_statement := by
  intro h
  obtain ⟨r, hr, _⟩ := h 1 [[[1]]] (by decide) (by simp)
  have e : flatten ([[[1]]].map fun objs : List (List Byte) =>
      fromBytes 1 objs.flatten objs.length) = .ub := by decide
  rw [e] at hr
  simp at hr

/-! ### C87: the elements callbacks receive -/

/-- C87 as claimed: the callback of map, filter, any, all and reduce is applied to the elements. -/
def C87_statement : Prop :=
  ∀ (t : IntTy) (vs : List Int), (∀ v ∈ vs, t.inRange v) → ∀ (i : Nat) (h : i < vs.length),
    callbackArg t (declareLit vs) i = .ok vs[i]

/-- It holds for signed 8-byte element types on arrays of literals. Missing for the full claim:
narrow types (`C87_witness`). -/
theorem C87_partial (t : IntTy) (ht : t = .int ∨ t = .i64) (vs : List Int)
    (hv : ∀ v ∈ vs, t.inRange v) (i : Nat) (h : i < vs.length) :
    callbackArg t (declareLit vs) i = .ok vs[i] := by
  have hg := get_repB (repB_lit vs) i (by simpa using h)
  have hl : (declareLit vs).len = vs.length := rfl
  have he : (declareLit vs).esz = 8 := rfl
  rw [SizedArr.get, if_neg (by omega), show (i : Int).toNat = i by simp, he] at hg
  have hx := hv vs[i] (List.getElem_mem h)
  have hsz : t.size = 8 := by rcases ht with rfl | rfl <;> rfl
  have hsg : t.signed = true := by rcases ht with rfl | rfl <;> rfl
  simp only [IntTy.inRange, hsz, hsg, if_true] at hx
  rw [callbackArg, hsz, hg]
  simp only [Outcome.bind_ok, hsg, if_true, List.getElem_map]
  rw [leInt_exact hx.1 hx.2]

/-- The same for unsigned 8-byte types. -/
theorem C87_unsigned_partial (t : IntTy) (ht : t = .uint ∨ t = .u64) (vs : List Int)
    (hv : ∀ v ∈ vs, t.inRange v) (i : Nat) (h : i < vs.length) :
    callbackArg t (declareLit vs) i = .ok vs[i] := by
  have hg := get_repB (repB_lit vs) i (by simpa using h)
  have hl : (declareLit vs).len = vs.length := rfl
  have he : (declareLit vs).esz = 8 := rfl
  rw [SizedArr.get, if_neg (by omega), show (i : Int).toNat = i by simp, he] at hg
  have hx := hv vs[i] (List.getElem_mem h)
  have hsz : t.size = 8 := by rcases ht with rfl | rfl <;> rfl
  have hsg : t.signed = false := by rcases ht with rfl | rfl <;> rfl
  simp only [IntTy.inRange, hsz, hsg, Bool.false_eq_true, if_false] at hx
  rw [callbackArg, hsz, hg]
  simp only [Outcome.bind_ok, hsg, Bool.false_eq_true, if_false, List.getElem_map]
  have e := leNat_leBytes 8 vs[i]
  rw [Int.emod_eq_of_lt hx.1 (lt_of_lt_of_eq hx.2 (by norm_num))] at e
  rw [e]

example : callbackArg .int (declareLit [1, 2, 3]) 1 = .ok 2 := by decide

/-- With `mut a [i32] = {7, 8}`, the second element the callback sees is 0; likewise for every
narrow type. -/
theorem C87_witness (t : IntTy) (ht : t.size ≠ 8) :
    callbackArg t (declareLit [7, 8]) 1 = .ok 0 := by
  cases t <;> first | exact absurd rfl ht | decide

theorem C87_fails : ¬ C87_statement := by
  intro h
  have := h .i32 [7, 8] (by simp [IntTy.inRange, IntTy.signed, IntTy.size]) 1 (by decide)
  rw [C87_witness .i32 (by decide)] at this
  simp at this

end Verif.Props

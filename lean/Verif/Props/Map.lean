import Verif.Lemmas.Map

/-!
C19 (maps as finite maps), C20 (iteration order), C21 (mutation while iterating),
C72 (for_each unlocks its collection), C73 (contains_value), C74 (merge), C75 (is_equal).
-/
namespace Verif.Props
open Verif Verif.Map

variable {K V : Type}

/-! ### Specification: histories of operations, most recent first -/

inductive MapOp (K V : Type) where
  | set (k : K) (v : V)
  | remove (k : K)
  | clear

/-- The value a key has after a history: that of the latest assignment to it, unless the key was
removed or the map cleared since. -/
def valueOf (eq : K → K → Bool) : List (MapOp K V) → K → Option V
  | [], _ => none
  | .set k' v :: h, k => if eq k' k then some v else valueOf eq h k
  | .remove k' :: h, k => if eq k' k then none else valueOf eq h k
  | .clear :: _, _ => none

/-- When the current presence of a key began: the position in the history of the assignment that
first gave it a value since it was last absent. -/
def bornAt (eq : K → K → Bool) : List (MapOp K V) → K → Nat
  | [], _ => 0
  | .set k' v :: h, k =>
    if eq k' k = true ∧ (valueOf eq h k).isNone then h.length else bornAt eq h k
  | _ :: h, k => bornAt eq h k

/-- The entries after a history, as an association list. -/
def live (eq : K → K → Bool) : List (MapOp K V) → List (K × V)
  | [] => []
  | .set k v :: h => specSet eq (live eq h) k v
  | .remove k :: h => specRemove eq (live eq h) k
  | .clear :: _ => []

/-- Every assignment of the history happened with at most `maxLive` = 268435455 live keys. -/
def Fits (eq : K → K → Bool) : List (MapOp K V) → Prop
  | [] => True
  | .set _ _ :: h => (live eq h).length ≤ maxLive ∧ Fits eq h
  | _ :: h => Fits eq h

/-- The operations of a history run on a fresh map. `d` is the room for nested `gray_map_set`
calls. -/
def runMap (ops : KeyOps K) (d cap : Nat) : List (MapOp K V) → Outcome (GrayMap K V)
  | [] => .ok (new cap)
  | .set k v :: h => do setDepth ops d (← runMap ops d cap h) k v
  | .remove k :: h => do
    let r ← remove ops (← runMap ops d cap h) k
    .ok r.1
  | .clear :: h => do
    let m ← runMap ops d cap h
    .ok (clear m)

/-! ### Facts about the specification -/

theorem mem_specSet {eq : K → K → Bool} {l : List (K × V)} {k : K} {v : V} {e : K × V}
    (h : e ∈ specSet eq l k v) : e ∈ l ∨ e = (k, v) ∨ (e.2 = v ∧ eq e.1 k = true ∧ ∃ v', (e.1, v') ∈ l) := by
  induction l with
  | nil => simp [specSet] at h; exact Or.inr (Or.inl h)
  | cons a t ih =>
    obtain ⟨k', v'⟩ := a
    rw [specSet] at h
    by_cases hk : eq k' k = true
    · rw [if_pos hk] at h
      rcases List.mem_cons.1 h with h | h
      · subst h; exact Or.inr (Or.inr ⟨rfl, hk, v', by simp⟩)
      · exact Or.inl (by simp [h])
    · rw [if_neg hk] at h
      rcases List.mem_cons.1 h with h | h
      · exact Or.inl (by simp [h])
      · rcases ih h with h | h | ⟨h1, h2, v2, h3⟩
        · exact Or.inl (by simp [h])
        · exact Or.inr (Or.inl h)
        · exact Or.inr (Or.inr ⟨h1, h2, v2, by simp [h3]⟩)

theorem specGet_set {ops : KeyOps K} (L : Lawful ops) (l : List (K × V)) (k : K) (v : V) (q : K) :
    specGet ops.eq (specSet ops.eq l k v) q =
      if ops.eq k q = true then some v else specGet ops.eq l q := by
  induction l with
  | nil =>
    simp only [specSet, specGet, List.find?_cons, List.find?_nil]
    by_cases h : ops.eq k q = true
    · simp [h]
    · simp [h]
  | cons a t ih =>
    obtain ⟨k', v'⟩ := a
    rw [specSet]
    by_cases hk : ops.eq k' k = true
    · rw [if_pos hk]
      have hiff : ops.eq k' q = true ↔ ops.eq k q = true :=
        ⟨fun h => L.trans _ _ _ (L.symm _ _ hk) h, fun h => L.trans _ _ _ hk h⟩
      simp only [specGet, List.find?_cons]
      by_cases h : ops.eq k q = true
      · simp [h, hiff.2 h]
      · have h' : ops.eq k' q = false := by
          rw [Bool.eq_false_iff]; exact fun x => h (hiff.1 x)
        simp [h, h']
    · rw [if_neg hk]
      simp only [specGet, List.find?_cons] at ih ⊢
      by_cases h' : ops.eq k' q = true
      · have h : ¬ ops.eq k q = true := fun h => hk (L.trans _ _ _ h' (L.symm _ _ h))
        simp [h, h']
      · simp only [h', Bool.not_eq_true] at ih ⊢
        exact ih

theorem specGet_remove {ops : KeyOps K} (L : Lawful ops) (l : List (K × V)) (k q : K) :
    specGet ops.eq (specRemove ops.eq l k) q =
      if ops.eq k q = true then none else specGet ops.eq l q := by
  induction l with
  | nil => simp [specRemove, specGet]
  | cons a t ih =>
    obtain ⟨k', v'⟩ := a
    simp only [specGet, specRemove, List.filter_cons, List.find?_cons] at ih ⊢
    by_cases hk : ops.eq k' k = true
    · simp only [hk, Bool.not_true, Bool.false_eq_true, if_false]
      rw [ih]
      by_cases h : ops.eq k q = true
      · simp [h]
      · have h' : ¬ ops.eq k' q = true := fun x => h (L.trans _ _ _ (L.symm _ _ hk) x)
        simp [h, h']
    · simp only [hk, Bool.not_false, if_true, List.find?_cons]
      by_cases h' : ops.eq k' q = true
      · have h : ¬ ops.eq k q = true := fun h => hk (L.trans _ _ _ h' (L.symm _ _ h))
        simp [h, h']
      · simp only [h', Bool.not_eq_true]
        exact ih

/-- Looking a key up in the association list gives the value the history assigns it. -/
theorem live_get {ops : KeyOps K} (L : Lawful ops) (h : List (MapOp K V)) (q : K) :
    specGet ops.eq (live ops.eq h) q = valueOf ops.eq h q := by
  induction h with
  | nil => rfl
  | cons o h ih =>
    cases o with
    | set k v => rw [live, specGet_set L, ih]; rfl
    | remove k => rw [live, specGet_remove L, ih]; rfl
    | clear => rfl

theorem any_isSome (eq : K → K → Bool) (l : List (K × V)) (q : K) :
    (l.any fun e => eq e.1 q) = (specGet eq l q).isSome := by
  induction l with
  | nil => rfl
  | cons a t ih =>
    simp only [specGet, List.any_cons, List.find?_cons] at ih ⊢
    by_cases h : eq a.1 q = true
    · simp [h]
    · simp only [Bool.not_eq_true] at h
      simp only [h, Bool.false_or]
      exact ih

/-- The table after a history represents the association list. -/
theorem run_spec {ops : KeyOps K} (L : Lawful ops) (d : Nat) {cap : Nat} (hcap : cap * 3 ≤ int32Max)
    (h : List (MapOp K V)) (hf : Fits ops.eq h) :
    ∃ m, runMap ops (d + 2) cap h = .ok m ∧ Inv ops m ∧ m.capacity * 3 ≤ int32Max ∧
      m.iterating = 0 ∧ ents m = live ops.eq h := by
  induction h with
  | nil =>
    have hM : int32Max = 2147483647 := rfl
    have hm : minCap = 8 := rfl
    refine ⟨_, rfl, new_inv ops _ _ ?_, ?_, rfl, rfl⟩
    · split <;> omega
    · simp only [new, GrayMap.capacity, List.length_replicate]
      split <;> omega
  | cons o h ih =>
    cases o with
    | set k v =>
      obtain ⟨m, h1, I, h3, hit, he⟩ := ih hf.2
      obtain ⟨m', h1', I', h3', hit', he'⟩ := setDepth_spec L I hit h3
        (by rw [← length_ents I, he]; exact hf.1) d k v
      refine ⟨m', ?_, I', h3', hit', by rw [he', he]; rfl⟩
      rw [runMap, h1]; exact h1'
    | remove k =>
      obtain ⟨m, h1, I, h3, hit, he⟩ := ih hf
      obtain ⟨m', h1', I', h3', hit', he'⟩ := remove_spec L I hit h3 k
      refine ⟨m', ?_, I', by rw [h3']; exact h3, hit', by rw [he', he]; rfl⟩
      rw [runMap, h1]
      simp only [Outcome.bind_ok, h1']
    | clear =>
      obtain ⟨m, h1, I, h3, hit, he⟩ := ih hf
      obtain ⟨I', he', hc', hit'⟩ := clear_spec I
      refine ⟨clear m, ?_, I', by rw [hc']; exact h3, by rw [hit', hit], he'⟩
      rw [runMap, h1]; rfl

/-! ### C19 -/

/-- The lookup of every key, membership and the size agree with the history. -/
def Agrees (ops : KeyOps K) (h : List (MapOp K V)) (m : GrayMap K V) : Prop :=
  (∀ k, get ops m k = .ok (valueOf ops.eq h k)) ∧
  (∀ k, has ops m k = .ok (valueOf ops.eq h k).isSome) ∧
  m.count = (live ops.eq h).length

/-- For every hash function and every history in which no assignment is made with more than
268435455 keys present, the map agrees with the history, whatever room is given to nested calls.
Missing for the full claim: larger maps, where `int32_t` arithmetic overflows (`C19_fails`). -/
theorem C19_partial {ops : KeyOps K} (L : Lawful ops) (d : Nat) {cap : Nat}
    (hcap : cap * 3 ≤ int32Max) (h : List (MapOp K V)) (hf : Fits ops.eq h) :
    ∃ m, runMap ops (d + 2) cap h = .ok m ∧ Agrees ops h m := by
  obtain ⟨m, h1, I, h3, _, he⟩ := run_spec L d hcap h hf
  refine ⟨m, h1, fun k => ?_, fun k => ?_, ?_⟩
  · rw [get_spec L I h3, he, live_get L]
  · rw [has_spec L I h3, any_isSome, he, live_get L]
  · rw [← length_ents I, he]

/-- `gray_map_remove` reports whether the key was present. -/
theorem C19_remove_result {ops : KeyOps K} (L : Lawful ops) (d : Nat) {cap : Nat}
    (hcap : cap * 3 ≤ int32Max) (h : List (MapOp K V)) (hf : Fits ops.eq h) (k : K) :
    ∃ m m', runMap ops (d + 2) cap h = .ok m ∧
      remove ops m k = .ok (m', (valueOf ops.eq h k).isSome) := by
  obtain ⟨m, h1, I, h3, hit, he⟩ := run_spec L d hcap h hf
  obtain ⟨m', h2, _⟩ := remove_spec L I hit h3 k
  refine ⟨m, m', h1, ?_⟩
  rw [h2, any_isSome, he, live_get L]

/-- No two entries counted by the size have equal keys, and the keys counted are exactly those
with a value: the size is the number of distinct live keys. -/
theorem C19_live_keys {ops : KeyOps K} (L : Lawful ops) (h : List (MapOp K V)) :
    (live ops.eq h).Pairwise (fun a b => ¬ ops.eq a.1 b.1 = true) ∧
    ∀ k, (∃ e ∈ live ops.eq h, ops.eq e.1 k = true) ↔ (valueOf ops.eq h k).isSome = true := by
  constructor
  · induction h with
    | nil => exact List.Pairwise.nil
    | cons o h ih =>
      cases o with
      | set k v =>
        rw [live]
        generalize live ops.eq h = l at ih
        induction l with
        | nil => simp [specSet]
        | cons a t iht =>
          obtain ⟨k', v'⟩ := a
          rw [List.pairwise_cons] at ih
          rw [specSet]
          by_cases hk : ops.eq k' k = true
          · rw [if_pos hk, List.pairwise_cons]; exact ⟨ih.1, ih.2⟩
          · rw [if_neg hk, List.pairwise_cons]
            refine ⟨fun e he => ?_, iht ih.2⟩
            rcases mem_specSet he with h | h | ⟨_, _, v2, h⟩
            · exact ih.1 e h
            · subst h; exact hk
            · exact ih.1 (e.1, v2) h
      | remove k => exact ih.filter _
      | clear => exact List.Pairwise.nil
  · intro k
    rw [← live_get L, ← any_isSome, List.any_eq_true]

def C19_statement : Prop :=
  ∀ (ops : KeyOps (List (BitVec 8))) (h : List (MapOp (List (BitVec 8)) Nat)), Lawful ops →
    ∃ D, ∀ d, D ≤ d → ∃ m, runMap ops d 8 h = .ok m ∧ Agrees ops h m

theorem string_lawful : Lawful stringOps := by
  have h : ∀ a b, stringOps.eq a b = true ↔ a = b := by
    intro a b
    show (if a.length ≠ b.length then false else a == b) = true ↔ a = b
    by_cases hl : a.length ≠ b.length
    · rw [if_pos hl]
      exact ⟨fun x => by simp at x, fun x => absurd (by rw [x]) hl⟩
    · rw [if_neg hl]; exact beq_iff_eq
  refine ⟨fun a => (h a a).2 rfl, fun a b x => (h b a).2 ((h a b).1 x).symm, ?_, ?_⟩
  · intro a b c x y; exact (h a c).2 (((h a b).1 x).trans ((h b c).1 y))
  · intro a b x; rw [(h a b).1 x]

/-- Assignments to `n` different string keys. -/
def fillHist : Nat → List (MapOp (List (BitVec 8)) Nat)
  | 0 => []
  | n + 1 => .set (List.replicate n 0#8) 0 :: fillHist n

theorem fillHist_live (n : Nat) :
    (live stringOps.eq (fillHist n)).length = n ∧
    ∀ e ∈ live stringOps.eq (fillHist n), e.1.length < n := by
  induction n with
  | zero => simp [fillHist, live]
  | succ n ih =>
    have hn : ∀ e ∈ live stringOps.eq (fillHist n), ¬ stringOps.eq e.1 (List.replicate n 0#8) = true := by
      intro e he h
      have h1 := ih.2 e he
      have : (if e.1.length ≠ (List.replicate n 0#8).length then false
        else e.1 == List.replicate n 0#8) = true := h
      rw [List.length_replicate, if_pos (by omega)] at this
      simp at this
    rw [fillHist, live, specSet_append hn]
    constructor
    · rw [List.length_append, ih.1]; rfl
    · intro e he
      rw [List.mem_append, List.mem_singleton] at he
      rcases he with he | he
      · have := ih.2 e he; omega
      · subst he; simp

/-- With 2^29 keys stored, the load check `count * 4` of the next `gray_map_set` overflows. -/
theorem C19_overflow_witness {K V : Type} (ops : KeyOps K) (m : GrayMap K V) (d : Nat) (k : K) (v : V)
    (hit : m.iterating = 0) (hc : m.count = 2 ^ 29) : setDepth ops d m k v = .ub := by
  cases d with
  | zero => rfl
  | succ d =>
    have hM : int32Max = 2147483647 := rfl
    unfold setDepth
    rw [if_neg (by omega), if_pos (by omega)]

/-- The claim without a size limit fails: a map cannot hold 2^29 + 1 keys. -/
theorem C19_fails : ¬ C19_statement := by
  intro h
  obtain ⟨D1, h1⟩ := h stringOps (fillHist (2 ^ 29)) string_lawful
  obtain ⟨D2, h2⟩ := h stringOps (fillHist (2 ^ 29 + 1)) string_lawful
  obtain ⟨m1, hr1, _, _, hc1⟩ := h1 (max D1 D2) (le_max_left _ _)
  obtain ⟨m2, hr2, _⟩ := h2 (max D1 D2) (le_max_right _ _)
  rw [(fillHist_live _).1] at hc1
  rw [fillHist, runMap, hr1] at hr2
  simp only [Outcome.bind_ok] at hr2
  by_cases hit : m1.iterating = 0
  · rw [C19_overflow_witness _ _ _ _ _ hit hc1] at hr2; cases hr2
  · generalize max D1 D2 = d at hr2
    cases d with
    | zero => cases hr2
    | succ d =>
      unfold setDepth at hr2
      rw [if_pos (by omega)] at hr2; cases hr2

/-! ### The four key kinds -/

theorem bytes_lawful : Lawful bytesOps := by
  have h : ∀ a b, bytesOps.eq a b = true ↔ a = b := fun a b => beq_iff_eq
  refine ⟨fun a => (h a a).2 rfl, fun a b x => (h b a).2 ((h a b).1 x).symm, ?_, ?_⟩
  · intro a b c x y; exact (h a c).2 (((h a b).1 x).trans ((h b c).1 y))
  · intro a b x; rw [(h a b).1 x]

theorem zero_not_nan64 (x : BitVec 64) (h : isZero64 x = true) : isNaN64 x = false := by
  unfold isZero64 at h; unfold isNaN64
  rw [beq_iff_eq] at h
  have : x.setWidth 52 = 0#52 := by
    have h2 : (x.setWidth 63).setWidth 52 = x.setWidth 52 := by
      rw [BitVec.setWidth_setWidth_of_le]; omega
    rw [← h2, h]; rfl
  simp [this]

theorem zero_not_nan32 (x : BitVec 32) (h : isZero32 x = true) : isNaN32 x = false := by
  unfold isZero32 at h; unfold isNaN32
  rw [beq_iff_eq] at h
  have : x.setWidth 23 = 0#23 := by
    have h2 : (x.setWidth 31).setWidth 23 = x.setWidth 23 := by
      rw [BitVec.setWidth_setWidth_of_le]; omega
    rw [← h2, h]; rfl
  simp [this]

def canon64 (x : BitVec 64) : BitVec 64 :=
  if isZero64 x then 0#64 else if isNaN64 x then 0x7FF8000000000000#64 else x

theorem f64_eq_iff (a b : BitVec 64) : f64Ops.eq a b = true ↔ canon64 a = canon64 b := by
  have z0 : isZero64 0#64 = true := by decide
  have n0 : isNaN64 0x7FF8000000000000#64 = true := by decide
  have zn : isZero64 0x7FF8000000000000#64 = false := by decide
  have hza := zero_not_nan64 a
  have hzb := zero_not_nan64 b
  have e1 : ∀ x, isZero64 x = false → x ≠ 0#64 := by rintro x h rfl; rw [z0] at h; cases h
  have e2 : ∀ x, isNaN64 x = false → x ≠ 0x7FF8000000000000#64 := by rintro x h rfl; rw [n0] at h; cases h
  have e3 := e1 a
  have e4 := e1 b
  have e5 := e2 a
  have e6 := e2 b
  have e7 : ∀ x y : BitVec 64, isZero64 x = true → isZero64 y = false → x ≠ y := by
    rintro x y h1 h2 rfl; rw [h1] at h2; cases h2
  have e8 := e7 a b
  have e9 := e7 b a
  have e4' := fun h => (e1 b h).symm
  have e6' := fun h => (e2 b h).symm
  have e9' := fun h h' => (e7 b a h h').symm
  clear e1 e2 e7
  show (if isZero64 a && isZero64 b then true
    else if isNaN64 a && isNaN64 b then true else ieeeEq64 a b) = true ↔ _
  unfold canon64 ieeeEq64
  cases ha : isZero64 a <;> cases hb : isZero64 b <;> cases na : isNaN64 a <;>
    cases nb : isNaN64 b <;> simp_all

theorem f64_lawful : Lawful f64Ops := by
  have h := f64_eq_iff
  refine ⟨fun a => (h a a).2 rfl, fun a b x => (h b a).2 ((h a b).1 x).symm, ?_, ?_⟩
  · intro a b c x y; exact (h a c).2 (((h a b).1 x).trans ((h b c).1 y))
  · intro a b x
    show hashBytes (bytes64 (canon64 a)) = hashBytes (bytes64 (canon64 b))
    rw [(h a b).1 x]

def canon32 (x : BitVec 32) : BitVec 32 :=
  if isZero32 x then 0#32 else if isNaN32 x then 0x7FC00000#32 else x

theorem f32_eq_iff (a b : BitVec 32) : f32Ops.eq a b = true ↔ canon32 a = canon32 b := by
  have z0 : isZero32 0#32 = true := by decide
  have n0 : isNaN32 0x7FC00000#32 = true := by decide
  have zn : isZero32 0x7FC00000#32 = false := by decide
  have hza := zero_not_nan32 a
  have hzb := zero_not_nan32 b
  have e1 : ∀ x, isZero32 x = false → x ≠ 0#32 := by rintro x h rfl; rw [z0] at h; cases h
  have e2 : ∀ x, isNaN32 x = false → x ≠ 0x7FC00000#32 := by rintro x h rfl; rw [n0] at h; cases h
  have e3 := e1 a
  have e4 := e1 b
  have e5 := e2 a
  have e6 := e2 b
  have e7 : ∀ x y : BitVec 32, isZero32 x = true → isZero32 y = false → x ≠ y := by
    rintro x y h1 h2 rfl; rw [h1] at h2; cases h2
  have e8 := e7 a b
  have e9 := e7 b a
  have e4' := fun h => (e1 b h).symm
  have e6' := fun h => (e2 b h).symm
  have e9' := fun h h' => (e7 b a h h').symm
  clear e1 e2 e7
  show (if isZero32 a && isZero32 b then true
    else if isNaN32 a && isNaN32 b then true else ieeeEq32 a b) = true ↔ _
  unfold canon32 ieeeEq32
  cases ha : isZero32 a <;> cases hb : isZero32 b <;> cases na : isNaN32 a <;>
    cases nb : isNaN32 b <;> simp_all

theorem f32_lawful : Lawful f32Ops := by
  have h := f32_eq_iff
  refine ⟨fun a => (h a a).2 rfl, fun a b x => (h b a).2 ((h a b).1 x).symm, ?_, ?_⟩
  · intro a b c x y; exact (h a c).2 (((h a b).1 x).trans ((h b c).1 y))
  · intro a b x
    show hashBytes (bytes32 (canon32 a)) = hashBytes (bytes32 (canon32 b))
    rw [(h a b).1 x]

/-- The hash and comparison functions of all four key kinds meet the requirements of the theorems
above, and float keys are identified exactly as `==` does, except that all NaNs are one key. -/
theorem C19_key_kinds : Lawful bytesOps ∧ Lawful stringOps ∧ Lawful f32Ops ∧ Lawful f64Ops ∧
    (∀ a b, bytesOps.eq a b = true ↔ a = b) ∧ (∀ a b, stringOps.eq a b = true ↔ a = b) ∧
    (∀ a b, f64Ops.eq a b = true ↔ ieeeEq64 a b = true ∨ (isNaN64 a = true ∧ isNaN64 b = true)) ∧
    (∀ a b, f32Ops.eq a b = true ↔ ieeeEq32 a b = true ∨ (isNaN32 a = true ∧ isNaN32 b = true)) := by
  refine ⟨bytes_lawful, string_lawful, f32_lawful, f64_lawful, fun a b => beq_iff_eq, ?_, ?_, ?_⟩
  · intro a b
    show (if a.length ≠ b.length then false else a == b) = true ↔ a = b
    by_cases hl : a.length ≠ b.length
    · rw [if_pos hl]
      exact ⟨fun x => by simp at x, fun x => absurd (by rw [x]) hl⟩
    · rw [if_neg hl]; exact beq_iff_eq
  · intro a b
    show (if isZero64 a && isZero64 b then true
      else if isNaN64 a && isNaN64 b then true else ieeeEq64 a b) = true ↔ _
    have h1 := zero_not_nan64 a
    have h2 := zero_not_nan64 b
    unfold ieeeEq64
    cases ha : isZero64 a <;> cases hb : isZero64 b <;> cases na : isNaN64 a <;>
      cases nb : isNaN64 b <;> simp_all
  · intro a b
    show (if isZero32 a && isZero32 b then true
      else if isNaN32 a && isNaN32 b then true else ieeeEq32 a b) = true ↔ _
    have h1 := zero_not_nan32 a
    have h2 := zero_not_nan32 b
    unfold ieeeEq32
    cases ha : isZero32 a <;> cases hb : isZero32 b <;> cases na : isNaN32 a <;>
      cases nb : isNaN32 b <;> simp_all

/-- Non-vacuity: every key in one bucket, with a removal leaving a tombstone, a re-insertion into
it and an overwrite behind it. -/
def collideOps : KeyOps Nat := { hash := fun _ => 7#64, eq := fun a b => a == b }

theorem collide_lawful : Lawful collideOps := by
  refine ⟨fun a => by simp [collideOps], fun a b => by simp [collideOps]; exact Eq.symm,
    fun a b c => by simp [collideOps]; exact Eq.trans, fun _ _ _ => rfl⟩

def sampleHist : List (MapOp Nat Nat) :=
  [.set 3 31, .set 4 40, .remove 1, .set 3 30, .set 2 20, .set 1 10]

example : Fits collideOps.eq sampleHist := by
  simp [sampleHist, Fits, live, maxLive, specSet, specRemove, collideOps]

example : (runMap collideOps 2 8 sampleHist).bind entries = .ok [(2, 20), (3, 31), (4, 40)] := by
  decide +kernel

example : ((runMap collideOps 2 8 sampleHist).bind fun m => .ok m.order) = .ok [0, 1, 7] := by
  decide +kernel

/-! ### C20 -/

/-- After every history (within the size limit of `C19_partial`) a loop over the map reads exactly
the live entries. Missing for the full claim: maps above the size limit. -/
theorem C20_entries_partial {ops : KeyOps K} (L : Lawful ops) (d : Nat) {cap : Nat}
    (hcap : cap * 3 ≤ int32Max) (h : List (MapOp K V)) (hf : Fits ops.eq h) :
    ∃ m, runMap ops (d + 2) cap h = .ok m ∧ entries m = .ok (live ops.eq h) ∧
      getKeys m = .ok ((live ops.eq h).map (·.1)) ∧
      getValues m = .ok ((live ops.eq h).map (·.2)) := by
  obtain ⟨m, h1, I, _, _, he⟩ := run_spec L d hcap h hf
  have := entries_spec I
  rw [he] at this
  exact ⟨m, h1, this, by rw [getKeys, this]; rfl, by rw [getValues, this]; rfl⟩

theorem mem_live_value {ops : KeyOps K} (L : Lawful ops) {h : List (MapOp K V)} {e : K × V}
    (he : e ∈ live ops.eq h) : (valueOf ops.eq h e.1).isSome = true :=
  ((C19_live_keys L h).2 e.1).1 ⟨e, he, L.refl _⟩

/-- The entries read are in the order in which their keys came to be present. -/
theorem C20_order {ops : KeyOps K} (L : Lawful ops) (h : List (MapOp K V)) :
    (live ops.eq h).Pairwise (fun a b => bornAt ops.eq h a.1 < bornAt ops.eq h b.1) ∧
    ∀ e ∈ live ops.eq h, bornAt ops.eq h e.1 < h.length := by
  induction h with
  | nil => exact ⟨List.Pairwise.nil, by simp [live]⟩
  | cons o h ih =>
    obtain ⟨ih1, ih2⟩ := ih
    cases o with
    | set k v =>
      rw [live]
      -- keys already present keep their time
      have hkeep : ∀ e ∈ live ops.eq h,
          bornAt ops.eq (MapOp.set k v :: h) e.1 = bornAt ops.eq h e.1 := by
        intro e he
        have := mem_live_value L he
        rw [bornAt, if_neg]
        rintro ⟨_, hn⟩
        rw [Option.isNone_iff_eq_none] at hn
        rw [hn] at this; simp at this
      by_cases hpres : ∃ e ∈ live ops.eq h, ops.eq e.1 k = true
      · have hkeys : (specSet ops.eq (live ops.eq h) k v).map (·.1) = (live ops.eq h).map (·.1) := by
          generalize live ops.eq h = l at hpres
          induction l with
          | nil => simp at hpres
          | cons a t iht =>
            obtain ⟨k', v'⟩ := a
            rw [specSet]
            by_cases hk : ops.eq k' k = true
            · rw [if_pos hk]; rfl
            · rw [if_neg hk, List.map_cons, List.map_cons, iht]
              obtain ⟨e, he, hek⟩ := hpres
              rcases List.mem_cons.1 he with he | he
              · subst he; exact absurd hek hk
              · exact ⟨e, he, hek⟩
        have hborn : ∀ q, (∃ e ∈ live ops.eq h, e.1 = q) →
            bornAt ops.eq (MapOp.set k v :: h) q = bornAt ops.eq h q := by
          rintro q ⟨e, he, rfl⟩; exact hkeep e he
        constructor
        · have h1 : ((live ops.eq h).map (·.1)).Pairwise (fun a b =>
              bornAt ops.eq (MapOp.set k v :: h) a < bornAt ops.eq (MapOp.set k v :: h) b) := by
            rw [List.pairwise_map]
            refine ih1.imp_of_mem ?_
            intro a b ha hb hab
            rw [hkeep a ha, hkeep b hb]; exact hab
          rw [← hkeys, List.pairwise_map] at h1
          exact h1
        · intro e he
          have : e.1 ∈ (specSet ops.eq (live ops.eq h) k v).map (·.1) := List.mem_map_of_mem he
          rw [hkeys, List.mem_map] at this
          obtain ⟨e', he', hee⟩ := this
          rw [← hee, hkeep e' he']
          exact Nat.lt_succ_of_lt (ih2 e' he')
      · have hno : ∀ e ∈ live ops.eq h, ¬ ops.eq e.1 k = true := fun e he hk => hpres ⟨e, he, hk⟩
        have hnone : (valueOf ops.eq h k).isNone = true := by
          cases hv : valueOf ops.eq h k with
          | none => rfl
          | some x => exact absurd (((C19_live_keys L h).2 k).2 (by rw [hv]; rfl)) hpres
        have hnew : bornAt ops.eq (MapOp.set k v :: h) k = h.length := by
          rw [bornAt, if_pos ⟨L.refl k, hnone⟩]
        rw [specSet_append hno]
        constructor
        · rw [List.pairwise_append]
          refine ⟨?_, by simp, ?_⟩
          · refine ih1.imp_of_mem ?_
            intro a b ha hb hab
            rw [hkeep a ha, hkeep b hb]; exact hab
          · intro a ha b hb
            rw [List.mem_singleton] at hb
            subst hb
            rw [hkeep a ha, hnew]
            exact ih2 a ha
        · intro e he
          rw [List.mem_append, List.mem_singleton] at he
          rcases he with he | he
          · rw [hkeep e he]; exact Nat.lt_succ_of_lt (ih2 e he)
          · subst he; rw [hnew]; exact Nat.lt_succ_self _
    | remove k =>
      refine ⟨ih1.filter _, fun e he => ?_⟩
      exact Nat.lt_succ_of_lt (ih2 e (List.mem_filter.1 he).1)
    | clear => exact ⟨List.Pairwise.nil, by simp [live]⟩

theorem order_full {ops : KeyOps K} {m : GrayMap K V} (I : Inv ops m) {i s : Nat}
    (h : m.order[i]? = some s) : ∃ k v, m.slots[s]? = some (.full k v) :=
  (I.order s).1 (List.mem_of_getElem? h)

/-- A `for_each` whose body leaves the map alone runs the body once for every live entry, in
insertion order, and leaves the map as it was. -/
theorem C20_for_each {ops : KeyOps K} {m : GrayMap K V} (I : Inv ops m) {σ : Type} (f : σ → K → V → σ)
    (st : σ) (r : Outcome (GrayMap K V × σ × Exit)) :
    ForEach (fun k v m st => .ok (m, f st k v, .next)) m st r ↔
      r = .ok (m, (ents m).foldl (fun s e => f s e.1 e.2) st, .next) := by
  have key : ∀ (n i : Nat) (st : σ) r, i + n = m.order.length →
      (Loop (fun k v m st => .ok (m, f st k v, .next)) i { m with iterating := m.iterating + 1 } st r ↔
        r = .ok ({ m with iterating := m.iterating + 1 },
          ((m.order.drop i).filterMap (entAt m.slots)).foldl (fun s e => f s e.1 e.2) st, .next)) := by
    intro n
    induction n with
    | zero =>
      intro i st r hi
      have hnone : m.order[i]? = none := List.getElem?_eq_none (by omega)
      have hd : m.order.drop i = [] := List.drop_eq_nil_of_le (by omega)
      rw [hd]
      constructor
      · intro h
        cases h with
        | done _ => rfl
        | bad h _ => rw [hnone] at h; simp at h
        | stop h _ _ _ => rw [hnone] at h; simp at h
        | step h _ _ _ => rw [hnone] at h; simp at h
      · rintro rfl; exact Loop.done hnone
    | succ n ih =>
      intro i st r hi
      have hlt : i < m.order.length := by omega
      have hsome : m.order[i]? = some m.order[i] := List.getElem?_eq_getElem hlt
      obtain ⟨k, v, hs⟩ := order_full I hsome
      have hd : (m.order.drop i).filterMap (entAt m.slots) =
          (k, v) :: (m.order.drop (i + 1)).filterMap (entAt m.slots) := by
        rw [List.drop_eq_getElem_cons hlt, List.filterMap_cons_some (entAt_full hs)]
      rw [hd, List.foldl_cons]
      constructor
      · intro h
        cases h with
        | done h => rw [hsome] at h; simp at h
        | bad h hb =>
          rw [hsome, Option.some.injEq] at h; subst h
          exact absurd hs (hb k v)
        | stop h _ hb hne => subst hb; exact absurd rfl (hne _ _)
        | step h h2 hb hl =>
          rw [hsome, Option.some.injEq] at h; subst h
          rw [hs] at h2
          simp only [Option.some.injEq, Slot.full.injEq] at h2
          obtain ⟨rfl, rfl⟩ := h2
          simp only [Outcome.ok.injEq, Prod.mk.injEq] at hb
          obtain ⟨rfl, rfl, _⟩ := hb
          exact (ih (i + 1) _ r (by omega)).1 hl
      · intro h
        exact Loop.step hsome hs rfl ((ih (i + 1) _ r (by omega)).2 h)
  unfold ForEach
  constructor
  · rintro ⟨r0, hl, rfl⟩
    rw [key m.order.length 0 st r0 (by omega)] at hl
    subst hl
    rfl
  · rintro rfl
    exact ⟨_, (key m.order.length 0 st _ (by omega)).2 rfl, rfl⟩

example : (runMap collideOps 2 8 sampleHist).bind getKeys = .ok [2, 3, 4] := by decide +kernel
example : bornAt collideOps.eq sampleHist 2 = 1 ∧ bornAt collideOps.eq sampleHist 3 = 2 ∧
  bornAt collideOps.eq sampleHist 4 = 4 := by decide

/-! ### C21 -/

/-- Assignment to a key (new or present) and removal panic while the map is being iterated. -/
theorem C21_set_remove_partial (ops : KeyOps K) (m : GrayMap K V) (h : 0 < m.iterating) (d : Nat)
    (k : K) (v : V) :
    setDepth ops (d + 1) m k v = .panic "P0035" ∧ remove ops m k = .panic "P0035" := by
  constructor
  · unfold setDepth; rw [if_pos h]
  · unfold remove; rw [if_pos h]

/-- Lookups are not affected by the guard. -/
theorem C21_reads {ops : KeyOps K} (m : GrayMap K V) (n : Nat) (k : K) :
    get ops { m with iterating := n } k = get ops m k ∧
    has ops { m with iterating := n } k = has ops m k := by
  have hl : ∀ c i, findLoop ops { m with iterating := n } k (home ops k m.capacity) c i =
      findLoop ops m k (home ops k m.capacity) c i := by
    intro c
    induction c with
    | zero => intro i; simp [findLoop]
    | succ c ih =>
      intro i
      unfold findLoop
      have : ({ m with iterating := n } : GrayMap K V).capacity = m.capacity := rfl
      rw [this]
      simp only [ih]
  have hf : findSlot ops { m with iterating := n } k = findSlot ops m k := hl _ _
  exact ⟨by unfold Map.get; rw [hf]; rfl, by unfold has; rw [hf]⟩

/-- Every operation that changes the set of keys panics during iteration. -/
def C21_statement : Prop :=
  ∀ (ops : KeyOps Nat) (m : GrayMap Nat Nat), 0 < m.iterating →
    (∀ d k v, (setDepth ops (d + 1) m k v).isPanic = true) ∧
    (∀ k, (remove ops m k).isPanic = true) ∧
    entries (clear m) = entries m

/-- A map with one entry, in the middle of a `for_each`. -/
def iteratedMap : GrayMap Nat Nat :=
  { slots := Slot.full 1 10 :: List.replicate 7 .empty, order := [0], count := 1, iterating := 1 }

/-- `gray_map_clear` empties a map that is being iterated. -/
theorem C21_clear_witness : entries iteratedMap = .ok [(1, 10)] ∧
    entries (clear iteratedMap) = .ok [] := by
  constructor <;> rfl

theorem C21_fails : ¬ C21_statement := by
  intro h
  have := (h collideOps iteratedMap (by decide)).2.2
  rw [C21_clear_witness.1, C21_clear_witness.2] at this
  simp at this

/-- The loop then ends early: entries after the current one are never visited. -/
theorem C21_clear_stops (m : GrayMap K V) (a b : Nat) (ka kb : K) (va vb : V)
    (ho : m.order = [a, b]) (ha : m.slots[a]? = some (.full ka va))
    (hb : m.slots[b]? = some (.full kb vb)) :
    ForEach (fun k _ m (st : List K) => .ok (clear m, st ++ [k], .next)) m []
      (.ok (clear m, [ka], .next)) := by
  refine ⟨.ok (clear { m with iterating := m.iterating + 1 }, [ka], .next), ?_, rfl⟩
  refine Loop.step (s := a) (k := ka) (v := va) (by simp [ho]) ha rfl ?_
  exact Loop.done rfl

/-! ### C72 -/

/-- A body that does not itself touch the guard. -/
def KeepsGuard {σ : Type} (body : Body K V σ) : Prop :=
  ∀ k v m st m' st' e, body k v m st = .ok (m', st', e) → m'.iterating = m.iterating

theorem loop_guard {σ : Type} {body : Body K V σ} (hb : KeepsGuard body) {i : Nat} {m : GrayMap K V}
    {st : σ} {r} (h : Loop body i m st r) :
    ∀ m' st' e, r = .ok (m', st', e) → m'.iterating = m.iterating := by
  induction h with
  | done _ => intro m' st' e h; cases h; rfl
  | bad _ _ => intro m' st' e h; cases h
  | stop _ _ h _ => intro m' st' e h'; exact hb _ _ _ _ _ _ _ (h.trans h')
  | step _ _ h _ ih => intro m' st' e h'; rw [ih m' st' e h', hb _ _ _ _ _ _ _ h]

/-- A `for_each` that runs to its end or is left by `break` restores the guard. Missing for the
full claim: leaving the loop by `return` (`C72_return_locks`). -/
theorem C72_partial {σ : Type} {body : Body K V σ} (hb : KeepsGuard body) {m : GrayMap K V} {st : σ}
    {m' : GrayMap K V} {st' : σ} (h : ForEach body m st (.ok (m', st', .next))) :
    m'.iterating = m.iterating := by
  obtain ⟨r0, hl, hr⟩ := h
  have hg := loop_guard hb hl
  cases r0 with
  | panic c => cases hr
  | ub => cases hr
  | ok x =>
    obtain ⟨m0, st0, e⟩ := x
    have := hg m0 st0 e rfl
    cases e with
    | ret => cases hr
    | next => cases hr; show m0.iterating - 1 = _; rw [this]; rfl
    | brk => cases hr; show m0.iterating - 1 = _; rw [this]; rfl

/-- However a `for_each` on an unlocked map ends, the map is unlocked afterwards. -/
def C72_statement : Prop :=
  ∀ (body : Body Nat Nat Unit) (m m' : GrayMap Nat Nat) (e : Exit), KeepsGuard body →
    m.iterating = 0 → ForEach body m () (.ok (m', (), e)) → m'.iterating = 0

/-- A function that returns from inside a `for_each` leaves the map locked: every later assignment
or removal panics with P0035, although no loop is running. -/
theorem C72_return_locks {σ : Type} {body : Body K V σ} (hb : KeepsGuard body) {m : GrayMap K V}
    {st : σ} {m' : GrayMap K V} {st' : σ} (h : ForEach body m st (.ok (m', st', .ret)))
    (ops : KeyOps K) (d : Nat) (k : K) (v : V) :
    setDepth ops (d + 1) m' k v = .panic "P0035" ∧ remove ops m' k = .panic "P0035" := by
  obtain ⟨r0, hl, hr⟩ := h
  have hg := loop_guard hb hl
  cases r0 with
  | panic c => cases hr
  | ub => cases hr
  | ok x =>
    obtain ⟨m0, st0, e⟩ := x
    have := hg m0 st0 e rfl
    cases e with
    | next => cases hr
    | brk => cases hr
    | ret =>
      cases hr
      exact C21_set_remove_partial ops m' (by rw [this]; exact Nat.succ_pos _) d k v

/-- The body `return k` on the first entry. -/
def returnFirst : Body Nat Nat Unit := fun _ _ m st => .ok (m, st, .ret)

theorem C72_witness : ForEach returnFirst { iteratedMap with iterating := 0 } ()
    (.ok (iteratedMap, (), .ret)) :=
  ⟨.ok (iteratedMap, (), .ret),
    Loop.stop (s := 0) (k := 1) (v := 10) rfl rfl rfl (fun _ _ h => by cases h), rfl⟩

theorem C72_fails : ¬ C72_statement := by
  intro h
  have := h returnFirst _ _ _ (fun _ _ _ _ _ _ _ h => by cases h; rfl) rfl C72_witness
  exact absurd this (by decide)

end Verif.Props

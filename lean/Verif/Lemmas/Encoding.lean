import Verif.Model.Encoding
import Mathlib.Tactic.NormNum
import Mathlib.Tactic.Ring

/-! Bits of numbers, and the encoding loops without their buffers. -/
namespace Verif.Enc
open Verif Verif.Str

/-- The `n` low bits of `v`, most significant first. -/
def bitsN : Nat → Nat → List Bool
  | 0, _ => []
  | n + 1, v => v.testBit n :: bitsN n v

/-- The bits of a byte string, most significant first. -/
def bytesBits (s : Str) : List Bool := s.flatMap fun b => bitsN 8 b.toNat

/-- The bits of a list of 6-bit groups. -/
def sixBits (vs : List Nat) : List Bool := vs.flatMap (bitsN 6)

theorem length_bitsN (n v : Nat) : (bitsN n v).length = n := by
  induction n with
  | zero => rfl
  | succ n ih => rw [bitsN, List.length_cons, ih]

theorem length_bytesBits (s : Str) : (bytesBits s).length = 8 * s.length := by
  induction s with
  | nil => rfl
  | cons b s ih =>
    rw [bytesBits, List.flatMap_cons, List.length_append, length_bitsN]
    change 8 + (bytesBits s).length = _
    rw [ih, List.length_cons]; omega

theorem length_sixBits (s : List Nat) : (sixBits s).length = 6 * s.length := by
  induction s with
  | nil => rfl
  | cons b s ih =>
    rw [sixBits, List.flatMap_cons, List.length_append, length_bitsN]
    change 6 + (sixBits s).length = _
    rw [ih, List.length_cons]; omega

theorem bytesBits_cons (b : Byte) (s : Str) : bytesBits (b :: s) = bitsN 8 b.toNat ++ bytesBits s :=
  rfl

theorem sixBits_cons (v : Nat) (vs : List Nat) : sixBits (v :: vs) = bitsN 6 v ++ sixBits vs := rfl

theorem bitsN_add (m n v : Nat) : bitsN (m + n) v = bitsN m (v / 2 ^ n) ++ bitsN n v := by
  induction m with
  | zero => rw [Nat.zero_add]; rfl
  | succ m ih =>
    rw [show m + 1 + n = (m + n) + 1 by omega, bitsN, ih, bitsN, List.cons_append,
      Nat.testBit_div_two_pow]

theorem bitsN_congr {n v w : Nat} (h : v % 2 ^ n = w % 2 ^ n) : bitsN n v = bitsN n w := by
  have key : ∀ k, k ≤ n → bitsN k v = bitsN k w := by
    intro k
    induction k with
    | zero => intro _; rfl
    | succ k ih =>
      intro hk
      have e1 := Nat.testBit_mod_two_pow v n k
      have e2 := Nat.testBit_mod_two_pow w n k
      rw [h] at e1
      rw [e1] at e2
      have hd : decide (k < n) = true := by simp; omega
      rw [hd, Bool.true_and, Bool.true_and] at e2
      rw [bitsN, bitsN, ih (by omega), e2]
  exact key n (Nat.le_refl n)

theorem bitsN_inj {n v w : Nat} (h : bitsN n v = bitsN n w) : v % 2 ^ n = w % 2 ^ n := by
  induction n with
  | zero => rw [Nat.pow_zero, Nat.mod_one, Nat.mod_one]
  | succ n ih =>
    rw [bitsN, bitsN, List.cons.injEq] at h
    apply Nat.eq_of_testBit_eq
    intro i
    rw [Nat.testBit_mod_two_pow, Nat.testBit_mod_two_pow]
    by_cases hi : i = n
    · rw [hi, h.1]
    · by_cases hl : i < n
      · have := congrArg (fun x => x.testBit i) (ih h.2)
        simp only [Nat.testBit_mod_two_pow] at this
        have hd : decide (i < n) = true := by simp; omega
        have hd' : decide (i < n + 1) = true := by simp; omega
        rw [hd] at this
        rw [hd']
        exact this
      · have hd' : decide (i < n + 1) = false := by simp; omega
        rw [hd', Bool.false_and, Bool.false_and]

theorem bitsN_inj_lt {n v w : Nat} (hv : v < 2 ^ n) (hw : w < 2 ^ n) (h : bitsN n v = bitsN n w) :
    v = w := by
  have := bitsN_inj h
  rwa [Nat.mod_eq_of_lt hv, Nat.mod_eq_of_lt hw] at this

/-- Cutting the bits of three bytes into four groups. -/
theorem bits_three (a b c : Nat) (hb : b < 256) (hc : c < 256) (t : Nat)
    (ht : t = a * 65536 + b * 256 + c) :
    bitsN 8 a ++ (bitsN 8 b ++ bitsN 8 c) =
      bitsN 6 (t / 2 ^ 18) ++ (bitsN 6 (t / 2 ^ 12) ++ (bitsN 6 (t / 2 ^ 6) ++ bitsN 6 t)) := by
  have e1 : bitsN (8 + (8 + 8)) t = bitsN 8 a ++ (bitsN 8 b ++ bitsN 8 c) := by
    rw [bitsN_add, bitsN_add]
    rw [bitsN_congr (v := t / 2 ^ (8 + 8)) (w := a) (by congr 1; omega),
      bitsN_congr (v := t / 2 ^ 8) (w := b) (by omega), bitsN_congr (v := t) (w := c) (by omega)]
  have e2 : bitsN (6 + (6 + (6 + 6))) t =
      bitsN 6 (t / 2 ^ 18) ++ (bitsN 6 (t / 2 ^ 12) ++ (bitsN 6 (t / 2 ^ 6) ++ bitsN 6 t)) := by
    rw [bitsN_add, bitsN_add, bitsN_add]
  rw [← e1, ← e2]

/-! ### Symbols -/

theorem table_length : table.length = 64 := by decide

theorem sym_mem {n : Nat} (h : n < 64) : sym n ∈ table := by
  rw [sym, List.getElem?_eq_getElem (by rw [table_length]; exact h)]
  exact List.getElem_mem _

set_option maxRecDepth 100000 in
theorem b64Val_fin : ∀ n : Fin 256, b64Val (BitVec.ofFin n) =
    (if BitVec.ofFin n ∈ table then some (table.idxOf (BitVec.ofFin n)) else none) := by
  decide +kernel

theorem b64Val_eq (c : Byte) : b64Val c = if c ∈ table then some (table.idxOf c) else none :=
  b64Val_fin c.toFin

set_option maxRecDepth 100000 in
theorem idxOf_sym_fin : ∀ n : Fin 64, table.idxOf (sym n) = n := by decide +kernel

theorem eq_not_mem : eq ∉ table := by decide

theorem b64Val_sym {n : Nat} (h : n < 64) : b64Val (sym n) = some n := by
  rw [b64Val_eq, if_pos (sym_mem h)]
  exact congrArg some (idxOf_sym_fin ⟨n, h⟩)

theorem b64Val_some {c : Byte} {v : Nat} (h : b64Val c = some v) : v < 64 ∧ c = sym v := by
  rw [b64Val_eq] at h
  split at h
  · rename_i hm
    have hlt : table.idxOf c < table.length := List.idxOf_lt_length_iff.2 hm
    cases h
    refine ⟨by rw [table_length] at hlt; exact hlt, ?_⟩
    rw [sym, List.getElem?_eq_getElem hlt, List.getElem_idxOf hlt]
    rfl
  · simp at h

theorem sym_ne_eq {n : Nat} (h : n < 64) : sym n ≠ eq := fun e => eq_not_mem (e ▸ sym_mem h)

theorem sym_inj {m n : Nat} (hm : m < 64) (hn : n < 64) (h : sym m = sym n) : m = n := by
  have e := b64Val_sym hm
  rw [h, b64Val_sym hn] at e
  exact (Option.some.inj e).symm

theorem b64Val_eqSign : b64Val eq = none := by decide

/-! ### Shifts as arithmetic -/

theorem or_arith (a b c : Nat) (hb : b < 256) (hc : c < 256) :
    (a <<< 16) ||| (b <<< 8) ||| c = a * 65536 + b * 256 + c := by
  rw [Nat.or_assoc, ← Nat.shiftLeft_add_eq_or_of_lt (i := 8) (by omega),
    ← Nat.shiftLeft_add_eq_or_of_lt (i := 16) (by rw [Nat.shiftLeft_eq]; omega),
    Nat.shiftLeft_eq, Nat.shiftLeft_eq]
  omega

theorem or_arith6 (a b c d : Nat) (hb : b < 64) (hc : c < 64) (hd : d < 64) :
    (a <<< 18) ||| (b <<< 12) ||| (c <<< 6) ||| d = a * 262144 + b * 4096 + c * 64 + d := by
  rw [Nat.or_assoc, Nat.or_assoc, ← Nat.shiftLeft_add_eq_or_of_lt (i := 6) (by omega),
    ← Nat.shiftLeft_add_eq_or_of_lt (i := 12) (by rw [Nat.shiftLeft_eq]; omega),
    ← Nat.shiftLeft_add_eq_or_of_lt (i := 18) (by rw [Nat.shiftLeft_eq, Nat.shiftLeft_eq]; omega),
    Nat.shiftLeft_eq, Nat.shiftLeft_eq, Nat.shiftLeft_eq]
  omega

theorem and_63 (x : Nat) : x &&& 0x3F = x % 64 := Nat.and_two_pow_sub_one_eq_mod x 6
theorem and_255 (x : Nat) : x &&& 0xFF = x % 256 := Nat.and_two_pow_sub_one_eq_mod x 8

theorem quad_three (a b c : Byte) : quad a (some b) (some c) =
    [sym ((a.toNat * 65536 + b.toNat * 256 + c.toNat) / 2 ^ 18 % 64),
     sym ((a.toNat * 65536 + b.toNat * 256 + c.toNat) / 2 ^ 12 % 64),
     sym ((a.toNat * 65536 + b.toNat * 256 + c.toNat) / 2 ^ 6 % 64),
     sym ((a.toNat * 65536 + b.toNat * 256 + c.toNat) % 64)] := by
  simp only [quad, Option.getD_some, Option.isSome_some, if_true]
  rw [or_arith _ _ _ b.isLt c.isLt, and_63, and_63, and_63, and_63, Nat.shiftRight_eq_div_pow,
    Nat.shiftRight_eq_div_pow, Nat.shiftRight_eq_div_pow]

theorem quad_two (a b : Byte) : quad a (some b) none =
    [sym ((a.toNat * 65536 + b.toNat * 256) / 2 ^ 18 % 64),
     sym ((a.toNat * 65536 + b.toNat * 256) / 2 ^ 12 % 64),
     sym ((a.toNat * 65536 + b.toNat * 256) / 2 ^ 6 % 64), eq] := by
  simp only [quad, Option.getD_some, Option.getD_none, Option.isSome_some, Option.isSome_none,
    if_true, Bool.false_eq_true, if_false]
  rw [show (0 : Byte).toNat = 0 from rfl, or_arith _ _ _ b.isLt (by omega), and_63, and_63, and_63,
    Nat.shiftRight_eq_div_pow, Nat.shiftRight_eq_div_pow, Nat.shiftRight_eq_div_pow, Nat.add_zero]

theorem quad_one (a : Byte) : quad a none none =
    [sym (a.toNat * 65536 / 2 ^ 18 % 64), sym (a.toNat * 65536 / 2 ^ 12 % 64), eq, eq] := by
  simp only [quad, Option.getD_none, Option.isSome_none, Bool.false_eq_true, if_false]
  rw [show (0 : Byte).toNat = 0 from rfl, or_arith _ _ _ (by omega) (by omega), and_63, and_63,
    Nat.shiftRight_eq_div_pow, Nat.shiftRight_eq_div_pow]
  simp only [Nat.zero_mul, Nat.add_zero]

theorem length_quad (a : Byte) (b c : Option Byte) : (quad a b c).length = 4 := rfl

/-! ### The encoder without its buffer -/

def encPure : Str → Str
  | [] => []
  | [a] => quad a none none
  | [a, b] => quad a (some b) none
  | a :: b :: c :: rest => quad a (some b) (some c) ++ encPure rest

theorem ind3 {P : Str → Prop} (h0 : P []) (h1 : ∀ a, P [a]) (h2 : ∀ a b, P [a, b])
    (h3 : ∀ a b c r, P r → P (a :: b :: c :: r)) : ∀ s, P s
  | [] => h0
  | [a] => h1 a
  | [a, b] => h2 a b
  | a :: b :: c :: r => h3 a b c r (ind3 h0 h1 h2 h3 r)

theorem length_encPure (s : Str) : (encPure s).length = (s.length + 2) / 3 * 4 := by
  induction s using ind3 with
  | h0 => rfl
  | h1 a => rw [encPure, length_quad]; simp
  | h2 a b => rw [encPure, length_quad]; simp
  | h3 a b c r ih =>
    rw [encPure, List.length_append, ih, length_quad]
    simp only [List.length_cons]
    omega

theorem b64EncLoop_eq (cap : Nat) (s : Str) : ∀ out : Str,
    out.length + (s.length + 2) / 3 * 4 ≤ cap →
    b64EncLoop cap s out = .ok (out ++ encPure s) := by
  induction s using ind3 with
  | h0 => intro out _; rw [b64EncLoop, encPure, List.append_nil]
  | h1 a =>
    intro out h
    rw [b64EncLoop, encPure, put, if_pos]
    rw [length_quad]; simpa using h
  | h2 a b =>
    intro out h
    rw [b64EncLoop, encPure, put, if_pos]
    rw [length_quad]; simpa using h
  | h3 a b c r ih =>
    intro out h
    simp only [List.length_cons] at h
    rw [b64EncLoop, encPure, put, if_pos (by rw [length_quad]; omega), Outcome.bind_ok, ih,
      List.append_assoc]
    rw [List.length_append, length_quad]; omega

/-! ### What base64 text means -/

/-- `t` is the base64 text whose 6-bit groups are `vs`, with `k` padding characters: its bits are
those of the byte string `s` followed by fewer than six bits `z`. -/
structure Form (t s : Str) (vs : List Nat) (z : List Bool) (k : Nat) : Prop where
  text : t = vs.map sym ++ List.replicate k eq
  groups : ∀ v ∈ vs, v < 64
  bits : sixBits vs = bytesBits s ++ z
  rest : z.length < 6
  pad : k ≤ 2
  whole : (vs.length + k) % 4 = 0

theorem Form.len {t s : Str} {vs : List Nat} {z : List Bool} {k : Nat} (h : Form t s vs z k) :
    6 * vs.length = 8 * s.length + z.length := by
  have := congrArg List.length h.bits
  rwa [length_sixBits, List.length_append, length_bytesBits] at this

theorem encPure_form (s : Str) : ∃ vs k n, Form (encPure s) s vs (List.replicate n false) k := by
  induction s using ind3 with
  | h0 => exact ⟨[], 0, 0, by constructor <;> simp [encPure, sixBits, bytesBits]⟩
  | h1 a =>
    have ha := a.isLt
    refine ⟨[a.toNat * 65536 / 2 ^ 18 % 64, a.toNat * 65536 / 2 ^ 12 % 64], 2, 4, ?_⟩
    constructor
    · rw [encPure, quad_one]; rfl
    · intro v hv; simp at hv; omega
    · have h := bits_three a.toNat 0 0 (by omega) (by omega) _ rfl
      have e : bitsN 8 0 ++ bitsN 8 0 = List.replicate 16 false := by decide
      rw [e] at h
      have h2 := congrArg (List.take 12) h
      rw [← List.append_assoc, ← List.append_assoc] at h2
      simp only [sixBits, List.flatMap_cons, List.flatMap_nil, List.append_nil, bytesBits]
      rw [List.take_append, length_bitsN, List.take_of_length_le (by rw [length_bitsN]; omega),
        List.take_append, List.take_append] at h2
      simp only [List.length_append, length_bitsN] at h2
      rw [List.take_of_length_le (l := bitsN 6 _ ++ bitsN 6 _) (by
        rw [List.length_append, length_bitsN, length_bitsN])] at h2
      simp only [Nat.sub_self, List.take_zero, List.append_nil, Nat.reduceSub, Nat.reduceAdd] at h2
      rw [List.take_replicate] at h2
      rw [show min 4 16 = 4 from rfl] at h2
      rw [h2, bitsN_congr (n := 6) (v := a.toNat * 65536 / 2 ^ 18 % 64)
          (w := (a.toNat * 65536 + 0 * 256 + 0) / 2 ^ 18) (by omega),
        bitsN_congr (n := 6) (v := a.toNat * 65536 / 2 ^ 12 % 64)
          (w := (a.toNat * 65536 + 0 * 256 + 0) / 2 ^ 12) (by omega)]
    · simp
    · omega
    · simp
  | h2 a b =>
    have ha := a.isLt
    have hb := b.isLt
    refine ⟨[(a.toNat * 65536 + b.toNat * 256) / 2 ^ 18 % 64,
      (a.toNat * 65536 + b.toNat * 256) / 2 ^ 12 % 64,
      (a.toNat * 65536 + b.toNat * 256) / 2 ^ 6 % 64], 1, 2, ?_⟩
    constructor
    · rw [encPure, quad_two]; rfl
    · intro v hv; simp at hv; omega
    · have h := bits_three a.toNat b.toNat 0 (by omega) (by omega) _ rfl
      have e : bitsN 8 0 = List.replicate 8 false := by decide
      rw [e] at h
      have h2 := congrArg (List.take 18) h
      rw [← List.append_assoc, ← List.append_assoc, ← List.append_assoc] at h2
      simp only [sixBits, List.flatMap_cons, List.flatMap_nil, List.append_nil, bytesBits]
      rw [List.take_append, List.length_append, length_bitsN, length_bitsN,
        List.take_of_length_le (by rw [List.length_append, length_bitsN, length_bitsN]; omega),
        List.take_append] at h2
      simp only [List.length_append, length_bitsN] at h2
      rw [List.take_of_length_le (l := bitsN 6 _ ++ bitsN 6 _ ++ bitsN 6 _) (by
        simp only [List.length_append, length_bitsN]; omega)] at h2
      simp only [Nat.sub_self, List.take_zero, List.append_nil, Nat.reduceSub, Nat.reduceAdd] at h2
      rw [List.take_replicate] at h2
      rw [show min 2 8 = 2 from rfl] at h2
      rw [h2, bitsN_congr (n := 6) (v := (a.toNat * 65536 + b.toNat * 256) / 2 ^ 18 % 64)
          (w := (a.toNat * 65536 + b.toNat * 256 + 0) / 2 ^ 18) (by omega),
        bitsN_congr (n := 6) (v := (a.toNat * 65536 + b.toNat * 256) / 2 ^ 12 % 64)
          (w := (a.toNat * 65536 + b.toNat * 256 + 0) / 2 ^ 12) (by omega),
        bitsN_congr (n := 6) (v := (a.toNat * 65536 + b.toNat * 256) / 2 ^ 6 % 64)
          (w := (a.toNat * 65536 + b.toNat * 256 + 0) / 2 ^ 6) (by omega), List.append_assoc]
    · simp
    · omega
    · simp
  | h3 a b c r ih =>
    obtain ⟨vs, k, n, h⟩ := ih
    refine ⟨(a.toNat * 65536 + b.toNat * 256 + c.toNat) / 2 ^ 18 % 64 ::
      (a.toNat * 65536 + b.toNat * 256 + c.toNat) / 2 ^ 12 % 64 ::
      (a.toNat * 65536 + b.toNat * 256 + c.toNat) / 2 ^ 6 % 64 ::
      (a.toNat * 65536 + b.toNat * 256 + c.toNat) % 64 :: vs, k, n, ?_⟩
    constructor
    · rw [encPure, quad_three, h.text]; rfl
    · intro v hv
      simp only [List.mem_cons] at hv
      rcases hv with rfl | rfl | rfl | rfl | hv
      · omega
      · omega
      · omega
      · omega
      · exact h.groups v hv
    · have h3 := bits_three a.toNat b.toNat c.toNat b.isLt c.isLt _ rfl
      rw [sixBits_cons, sixBits_cons, sixBits_cons, sixBits_cons, h.bits, bytesBits_cons,
        bytesBits_cons, bytesBits_cons]
      generalize a.toNat * 65536 + b.toNat * 256 + c.toNat = t at h3 ⊢
      rw [bitsN_congr (n := 6) (v := t / 2 ^ 18 % 64) (w := t / 2 ^ 18) (by omega),
        bitsN_congr (n := 6) (v := t / 2 ^ 12 % 64) (w := t / 2 ^ 12) (by omega),
        bitsN_congr (n := 6) (v := t / 2 ^ 6 % 64) (w := t / 2 ^ 6) (by omega),
        bitsN_congr (n := 6) (v := t % 64) (w := t) (by omega)]
      have h4 := congrArg (· ++ (bytesBits r ++ List.replicate n false)) h3
      simp only [List.append_assoc] at h4 ⊢
      exact h4.symm
    · exact h.rest
    · exact h.pad
    · have := h.whole
      simp only [List.length_cons]
      omega

/-! ### The decoder without its buffer -/

def quadPure (a b c d : Byte) (last : Bool) : Outcome Str :=
  if (c = eq ∨ d = eq) ∧ last = false then .panic "P0037"
  else if c = eq ∧ d ≠ eq then .panic "P0038"
  else
    match b64Val a, b64Val b, padVal c, padVal d with
    | some va, some vb, some vc, some vd =>
      .ok (quadBytes va vb vc vd (decide (c = eq)) (decide (d = eq)))
    | _, _, _, _ => .panic "P0039"

def decPure : Str → Outcome Str
  | a :: b :: c :: d :: rest => do
    let q ← quadPure a b c d rest.isEmpty
    let r ← decPure rest
    .ok (q ++ r)
  | _ => .ok []

theorem b64Quad_eq (cap : Nat) (a b c d : Byte) (last : Bool) (out : Str) :
    b64Quad cap a b c d last out = quadPure a b c d last >>= fun q => put cap out q := by
  unfold b64Quad quadPure
  split
  · rfl
  · split
    · rfl
    · cases b64Val a <;> cases b64Val b <;> cases padVal c <;> cases padVal d <;> rfl

theorem quadPure_len {a b c d : Byte} {last : Bool} {q : Str} (h : quadPure a b c d last = .ok q) :
    q.length = 3 - ((if d = eq then 1 else 0) + (if c = eq then 1 else 0)) ∧
      (last = false → q.length = 3) := by
  unfold quadPure at h
  split at h
  · simp at h
  · rename_i h1
    split at h
    · simp at h
    · split at h
      · cases h
        constructor
        · unfold quadBytes
          by_cases hc : c = eq <;> by_cases hd : d = eq <;> simp [hc, hd]
        · intro hl
          have hc : c ≠ eq := fun e => h1 ⟨Or.inl e, hl⟩
          have hd : d ≠ eq := fun e => h1 ⟨Or.inr e, hl⟩
          simp [quadBytes, hc, hd]
      · simp at h

/-- Bytes the decoder has room for. -/
def room (t : Str) : Nat := if t = [] then 0 else t.length / 4 * 3 - padCount t

theorem padCount_le (t : Str) : padCount t ≤ 2 := by
  unfold padCount; split <;> split <;> omega

theorem padCount_cons4 (a b c d : Byte) (rest : Str) (h : 2 ≤ rest.length) :
    padCount (a :: b :: c :: d :: rest) = padCount rest := by
  unfold padCount
  have e1 : (a :: b :: c :: d :: rest)[(a :: b :: c :: d :: rest).length - 1]? =
      rest[rest.length - 1]? := by
    rw [show (a :: b :: c :: d :: rest).length - 1 = (rest.length - 1) + 4 by simp; omega]
    rfl
  have e2 : (a :: b :: c :: d :: rest)[(a :: b :: c :: d :: rest).length - 2]? =
      rest[rest.length - 2]? := by
    rw [show (a :: b :: c :: d :: rest).length - 2 = (rest.length - 2) + 4 by simp; omega]
    rfl
  rw [e1, e2]

theorem padCount_four (a b c d : Byte) :
    padCount [a, b, c, d] = (if d = eq then 1 else 0) + (if c = eq then 1 else 0) := by
  unfold padCount
  rw [show [a, b, c, d][[a, b, c, d].length - 1]? = some d from rfl,
    show [a, b, c, d][[a, b, c, d].length - 2]? = some c from rfl]
  simp only [Option.some.injEq]

theorem ind4 {P : Str → Prop} (h0 : P [])
    (h4 : ∀ a b c d r, r.length % 4 = 0 → P r → P (a :: b :: c :: d :: r)) :
    ∀ s : Str, s.length % 4 = 0 → P s
  | [], _ => h0
  | [_], h => by simp at h
  | [_, _], h => by simp at h
  | [_, _, _], h => by simp at h
  | a :: b :: c :: d :: r, h => by
    have hr : r.length % 4 = 0 := by simp only [List.length_cons] at h; omega
    exact h4 a b c d r hr (ind4 h0 h4 r hr)

theorem b64DecLoop_eq (cap : Nat) (t : Str) (ht : t.length % 4 = 0) : ∀ out : Str,
    out.length + room t ≤ cap →
    b64DecLoop cap t out = decPure t >>= fun r => .ok (out ++ r) := by
  refine ind4 (P := fun t => ∀ out : Str, out.length + room t ≤ cap →
    b64DecLoop cap t out = decPure t >>= fun r => .ok (out ++ r)) ?_ ?_ t ht
  · intro out _
    rw [b64DecLoop, decPure]
    · simp
    · intro a b c d r h; simp at h
    · intro a b c d r h; simp at h
  · intro a b c d r hr ih out h
    rw [b64DecLoop, decPure, b64Quad_eq]
    cases hq : quadPure a b c d r.isEmpty with
    | panic e => rfl
    | ub => rfl
    | ok q =>
      obtain ⟨hl, hl3⟩ := quadPure_len hq
      have hroom : q.length + room r ≤ room (a :: b :: c :: d :: r) := by
        by_cases hre : r = []
        · subst hre
          rw [room, if_pos rfl, room, if_neg (by simp), padCount_four]
          simp only [List.length_cons, List.length_nil]
          omega
        · have h4 : 4 ≤ r.length := by
            have := List.length_pos_iff.2 hre
            omega
          have hq3 : q.length = 3 := hl3 (by cases r <;> simp at hre ⊢)
          have hp := padCount_le r
          rw [room, if_neg hre, room, if_neg (by simp), padCount_cons4 _ _ _ _ _ (by omega)]
          simp only [List.length_cons]
          omega
      simp only [Outcome.bind_ok]
      rw [put, if_pos (by omega), Outcome.bind_ok, ih _ (by rw [List.length_append]; omega)]
      cases decPure r with
      | ok r' => simp
      | panic e => rfl
      | ub => rfl

theorem b64Decode_eq (t : Str) : b64Decode t =
    if t.length % 4 ≠ 0 then .panic "P0036" else decPure t := by
  unfold b64Decode
  by_cases h0 : t.length = 0
  · have : t = [] := List.length_eq_zero_iff.1 h0
    subst this
    simp [decPure]
  · rw [if_neg h0]
    split
    · rfl
    · rename_i h4
      have hne : t ≠ [] := fun e => h0 (by rw [e]; rfl)
      rw [b64DecLoop_eq _ _ (by omega) [] (by rw [room, if_neg hne]; simp)]
      cases decPure t <;> simp

/-! ### Decoding and the meaning of the text -/

/-- Three bytes from four groups. -/
theorem quadBytes_three (a b c d : Nat) (ha : a < 64) (hb : b < 64) (hc : c < 64) (hd : d < 64) :
    bytesBits (quadBytes a b c d false false) = sixBits [a, b, c, d] := by
  simp only [quadBytes, Bool.false_eq_true, if_false]
  rw [or_arith6 _ _ _ _ hb hc hd, and_255, and_255, and_255, Nat.shiftRight_eq_div_pow,
    Nat.shiftRight_eq_div_pow]
  have h := bits_three ((a * 262144 + b * 4096 + c * 64 + d) / 65536)
    ((a * 262144 + b * 4096 + c * 64 + d) / 256 % 256) ((a * 262144 + b * 4096 + c * 64 + d) % 256)
    (by omega) (by omega) (a * 262144 + b * 4096 + c * 64 + d) (by omega)
  generalize ht : a * 262144 + b * 4096 + c * 64 + d = t at h ⊢
  have htl : t < 2 ^ 24 := by omega
  simp only [bytesBits, List.cons_append, List.nil_append, List.flatMap_cons, List.flatMap_nil,
    List.append_nil, BitVec.toNat_ofNat, sixBits]
  rw [bitsN_congr (n := 8) (v := t / 2 ^ 16 % 256 % 2 ^ 8) (w := t / 65536) (by omega),
    bitsN_congr (n := 8) (v := t / 2 ^ 8 % 256 % 2 ^ 8) (w := t / 256 % 256) (by omega),
    bitsN_congr (n := 8) (v := t % 256 % 2 ^ 8) (w := t % 256) (by omega), h,
    bitsN_congr (n := 6) (v := t / 2 ^ 18) (w := a) (by omega),
    bitsN_congr (n := 6) (v := t / 2 ^ 12) (w := b) (by omega),
    bitsN_congr (n := 6) (v := t / 2 ^ 6) (w := c) (by omega),
    bitsN_congr (n := 6) (v := t) (w := d) (by omega)]

theorem quadBytes_two (a b c d : Nat) (e : Bool) :
    quadBytes a b c d false true = (quadBytes a b c d false false).take 2 ∧
    quadBytes a b c d true true = (quadBytes a b c d false e).take 1 := by
  constructor <;> rfl

theorem bytesBits_append (s t : Str) : bytesBits (s ++ t) = bytesBits s ++ bytesBits t := by
  rw [bytesBits, List.flatMap_append]; rfl

theorem sixBits_append (s t : List Nat) : sixBits (s ++ t) = sixBits s ++ sixBits t := by
  rw [sixBits, List.flatMap_append]; rfl

theorem bytesBits_inj : ∀ {s t : Str}, bytesBits s = bytesBits t → s = t := by
  intro s
  induction s with
  | nil =>
    intro t h
    have := congrArg List.length h
    rw [length_bytesBits, length_bytesBits] at this
    exact (List.length_eq_zero_iff.1 (by simp at this; simp [this])).symm
  | cons a s ih =>
    intro t h
    cases t with
    | nil =>
      have := congrArg List.length h
      rw [length_bytesBits, length_bytesBits] at this
      simp at this
    | cons b t =>
      rw [bytesBits_cons, bytesBits_cons] at h
      obtain ⟨h1, h2⟩ := List.append_inj h (by rw [length_bitsN, length_bitsN])
      rw [ih h2, BitVec.eq_of_toNat_eq (bitsN_inj_lt a.isLt b.isLt h1)]

theorem sixBits_inj : ∀ {s t : List Nat}, (∀ v ∈ s, v < 64) → (∀ v ∈ t, v < 64) →
    sixBits s = sixBits t → s = t := by
  intro s
  induction s with
  | nil =>
    intro t _ _ h
    have := congrArg List.length h
    rw [length_sixBits, length_sixBits] at this
    exact (List.length_eq_zero_iff.1 (by simp at this; simp [this])).symm
  | cons a s ih =>
    intro t hs ht h
    cases t with
    | nil =>
      have := congrArg List.length h
      rw [length_sixBits, length_sixBits] at this
      simp at this
    | cons b t =>
      rw [sixBits_cons, sixBits_cons] at h
      obtain ⟨h1, h2⟩ := List.append_inj h (by rw [length_bitsN, length_bitsN])
      rw [ih (fun v hv => hs v (by simp [hv])) (fun v hv => ht v (by simp [hv])) h2,
        bitsN_inj_lt (hs a (by simp)) (ht b (by simp)) h1]

/-- What a quad decodes to. -/
theorem quadPure_ok {a b c d : Byte} {last : Bool} {q : Str} (h : quadPure a b c d last = .ok q) :
    ∃ vs z k, Form [a, b, c, d] q vs z k ∧ (last = false → k = 0) := by
  unfold quadPure at h
  split at h
  · simp at h
  · rename_i h1
    split at h
    · simp at h
    · rename_i h2
      split at h
      · rename_i va vb vc vd ea eb ec ed
        obtain ⟨hva, rfl⟩ := b64Val_some ea
        obtain ⟨hvb, rfl⟩ := b64Val_some eb
        unfold padVal at ec ed
        by_cases hd : d = eq
        · subst hd
          rw [if_pos rfl] at ed
          cases ed
          have hl : last = true := by
            cases last
            · exact absurd ⟨Or.inr rfl, rfl⟩ h1
            · rfl
          by_cases hc : c = eq
          · subst hc
            rw [if_pos rfl] at ec
            cases ec
            have hb := quadBytes_three va vb 0 0 hva hvb (by omega) (by omega)
            have e2 := (quadBytes_two va vb 0 0 false).2
            simp only [decide_true] at h
            rw [e2] at h
            cases h
            generalize hQ : quadBytes va vb 0 0 false false = Q at hb ⊢
            have hQl : Q.length = 3 := by rw [← hQ]; rfl
            refine ⟨[va, vb], (bytesBits (Q.drop 1)).take 4, 2, ⟨rfl, ?_, ?_, ?_, by omega, by simp⟩,
              by simp [hl]⟩
            · intro v hv; simp at hv; omega
            · have e : bytesBits Q = bytesBits (Q.take 1) ++ bytesBits (Q.drop 1) := by
                rw [← bytesBits_append, List.take_append_drop]
              rw [e] at hb
              have h3 := congrArg (List.take 12) hb
              rw [List.take_append, length_bytesBits, List.length_take, hQl,
                List.take_of_length_le (by rw [length_bytesBits, List.length_take]; omega)] at h3
              rw [show [va, vb, 0, 0] = [va, vb] ++ [0, 0] from rfl, sixBits_append,
                List.take_append, length_sixBits,
                List.take_of_length_le (l := sixBits [va, vb]) (by rw [length_sixBits]; simp)] at h3
              simp only [List.length_cons, List.length_nil, Nat.reduceAdd, Nat.reduceMul,
                Nat.reduceSub, List.take_zero, List.append_nil] at h3
              rw [← h3]
              rfl
            · rw [List.length_take]; omega
          · rw [if_neg hc] at ec
            obtain ⟨hvc, rfl⟩ := b64Val_some ec
            have hb := quadBytes_three va vb vc 0 hva hvb hvc (by omega)
            have e2 := (quadBytes_two va vb vc 0 false).1
            simp only [decide_true, hc, decide_false] at h
            rw [e2] at h
            cases h
            generalize hQ : quadBytes va vb vc 0 false false = Q at hb ⊢
            have hQl : Q.length = 3 := by rw [← hQ]; rfl
            refine ⟨[va, vb, vc], (bytesBits (Q.drop 2)).take 2, 1, ⟨rfl, ?_, ?_, ?_, by omega, by simp⟩,
              by simp [hl]⟩
            · intro v hv; simp at hv; omega
            · have e : bytesBits Q = bytesBits (Q.take 2) ++ bytesBits (Q.drop 2) := by
                rw [← bytesBits_append, List.take_append_drop]
              rw [e] at hb
              have h3 := congrArg (List.take 18) hb
              rw [List.take_append, length_bytesBits, List.length_take, hQl,
                List.take_of_length_le (by rw [length_bytesBits, List.length_take]; omega)] at h3
              rw [show [va, vb, vc, 0] = [va, vb, vc] ++ [0] from rfl, sixBits_append,
                List.take_append, length_sixBits,
                List.take_of_length_le (l := sixBits [va, vb, vc]) (by rw [length_sixBits]; simp)] at h3
              simp only [List.length_cons, List.length_nil, Nat.reduceAdd, Nat.reduceMul,
                Nat.reduceSub, List.take_zero, List.append_nil] at h3
              rw [← h3]
              rfl
            · rw [List.length_take]; omega
        · have hc : c ≠ eq := fun e => h2 ⟨e, hd⟩
          rw [if_neg hc] at ec
          rw [if_neg hd] at ed
          obtain ⟨hvc, rfl⟩ := b64Val_some ec
          obtain ⟨hvd, rfl⟩ := b64Val_some ed
          simp only [hc, hd, decide_false] at h
          cases h
          refine ⟨[va, vb, vc, vd], [], 0, ⟨rfl, ?_, ?_, by simp, by omega, by simp⟩, fun _ => rfl⟩
          · intro v hv; simp at hv; omega
          · rw [List.append_nil, quadBytes_three va vb vc vd hva hvb hvc hvd]
      · simp at h

theorem decPure_form (t : Str) (ht : t.length % 4 = 0) : ∀ s, decPure t = .ok s →
    ∃ vs z k, Form t s vs z k := by
  refine ind4 (P := fun t => ∀ s, decPure t = .ok s → ∃ vs z k, Form t s vs z k) ?_ ?_ t ht
  · intro s h
    rw [decPure] at h
    · cases h
      exact ⟨[], [], 0, by constructor <;> simp [sixBits, bytesBits]⟩
    · intro a b c d r h; simp at h
  · intro a b c d r hr ih s h
    rw [decPure] at h
    cases hq : quadPure a b c d r.isEmpty with
    | panic e => rw [hq] at h; simp at h
    | ub => rw [hq] at h; simp at h
    | ok q =>
      rw [hq, Outcome.bind_ok] at h
      obtain ⟨vs, z, k, hf, hk⟩ := quadPure_ok hq
      cases hrr : decPure r with
      | panic e => rw [hrr] at h; simp at h
      | ub => rw [hrr] at h; simp at h
      | ok r' =>
        rw [hrr, Outcome.bind_ok] at h
        cases h
        by_cases hre : r = []
        · subst hre
          rw [decPure] at hrr
          · cases hrr
            rw [List.append_nil]
            exact ⟨vs, z, k, hf⟩
          · intro a b c d r h; simp at h
        · obtain ⟨vs', z', k', hf'⟩ := ih r' hrr
          have hk0 : k = 0 := hk (by cases r <;> simp at hre ⊢)
          subst hk0
          have hz : z = [] := by
            have h1 := hf.len
            have h2 := congrArg List.length hf.text
            simp at h2
            apply List.length_eq_zero_iff.1
            have := hf.rest
            omega
          subst hz
          refine ⟨vs ++ vs', z', k', ?_, ?_, ?_, hf'.rest, hf'.pad, ?_⟩
          · rw [List.map_append, List.append_assoc, ← hf'.text]
            have := hf.text
            simp only [List.replicate_zero, List.append_nil] at this
            rw [← this]
            rfl
          · intro v hv
            rcases List.mem_append.1 hv with h | h
            · exact hf.groups v h
            · exact hf'.groups v h
          · rw [sixBits_append, hf.bits, hf'.bits, bytesBits_append, List.append_nil,
              List.append_assoc]
          · have h1 := hf.whole
            have h2 := hf'.whole
            rw [List.length_append]
            omega

theorem decPure_ok : ∀ (vs : List Nat) (k : Nat), (∀ v ∈ vs, v < 64) → k ≤ 2 →
    (vs.length + k) % 4 = 0 → ∃ s, decPure (vs.map sym ++ List.replicate k eq) = .ok s
  | [], k, _, hk, hl => by
    have : k = 0 := by simp at hl; omega
    subst this
    exact ⟨[], by rw [decPure]; intro a b c d r h; simp at h⟩
  | [_], k, _, hk, hl => by simp at hl; omega
  | [a, b], k, hv, hk, hl => by
    have : k = 2 := by simp at hl; omega
    subst this
    have ha := hv a (by simp)
    have hb := hv b (by simp)
    have e : [a, b].map sym ++ List.replicate 2 eq = sym a :: sym b :: eq :: eq :: [] := rfl
    rw [e, decPure, quadPure]
    simp only [List.isEmpty_nil, Bool.true_eq_false, and_false, if_false, ne_eq, not_true,
      b64Val_sym ha, b64Val_sym hb, padVal, if_true]
    rw [Outcome.bind_ok, decPure]
    · exact ⟨_, rfl⟩
    · intro a b c d r h; simp at h
  | [a, b, c], k, hv, hk, hl => by
    have : k = 1 := by simp at hl; omega
    subst this
    have ha := hv a (by simp)
    have hb := hv b (by simp)
    have hc := hv c (by simp)
    have e : [a, b, c].map sym ++ List.replicate 1 eq = sym a :: sym b :: sym c :: eq :: [] := rfl
    rw [e, decPure, quadPure]
    simp only [List.isEmpty_nil, Bool.true_eq_false, and_false, if_false, ne_eq, not_true,
      b64Val_sym ha, b64Val_sym hb, b64Val_sym hc, padVal, if_true, sym_ne_eq hc]
    rw [Outcome.bind_ok, decPure]
    · exact ⟨_, rfl⟩
    · intro a b c d r h; simp at h
  | a :: b :: c :: d :: vs, k, hv, hk, hl => by
    have ha := hv a (by simp)
    have hb := hv b (by simp)
    have hc := hv c (by simp)
    have hd := hv d (by simp)
    obtain ⟨s, hs⟩ := decPure_ok vs k (fun v h => hv v (by simp [h])) hk
      (by simp only [List.length_cons] at hl; omega)
    have e : (a :: b :: c :: d :: vs).map sym ++ List.replicate k eq =
        sym a :: sym b :: sym c :: sym d :: (vs.map sym ++ List.replicate k eq) := rfl
    rw [e, decPure, quadPure]
    simp only [sym_ne_eq hc, sym_ne_eq hd, or_self, false_and, if_false, b64Val_sym ha,
      b64Val_sym hb, b64Val_sym hc, b64Val_sym hd, padVal, Outcome.bind_ok, hs]
    exact ⟨_, rfl⟩

theorem text_inj : ∀ {vs vs' : List Nat} {k k' : Nat}, (∀ v ∈ vs, v < 64) → (∀ v ∈ vs', v < 64) →
    vs.map sym ++ List.replicate k eq = vs'.map sym ++ List.replicate k' eq → vs = vs' ∧ k = k'
  | [], [], k, k', _, _, h => by
    have := congrArg List.length h
    simpa using this
  | [], v :: vs', 0, k', _, _, h => by simp at h
  | [], v :: vs', k + 1, k', _, hv, h => by
    rw [List.replicate_succ] at h
    simp only [List.map_nil, List.nil_append, List.map_cons, List.cons_append, List.cons.injEq] at h
    exact absurd h.1.symm (sym_ne_eq (hv v (by simp)))
  | v :: vs, [], k, 0, _, _, h => by simp at h
  | v :: vs, [], k, k' + 1, hv, _, h => by
    rw [List.replicate_succ] at h
    simp only [List.map_nil, List.nil_append, List.map_cons, List.cons_append, List.cons.injEq] at h
    exact absurd h.1 (sym_ne_eq (hv v (by simp)))
  | v :: vs, v' :: vs', k, k', hv, hv', h => by
    simp only [List.map_cons, List.cons_append, List.cons.injEq] at h
    obtain ⟨h1, h2⟩ := text_inj (fun w hw => hv w (by simp [hw])) (fun w hw => hv' w (by simp [hw]))
      h.2
    rw [h1, sym_inj (hv v (by simp)) (hv' v' (by simp)) h.1]
    exact ⟨rfl, h2⟩

theorem Form.unique {t s s' : Str} {vs vs' : List Nat} {z z' : List Bool} {k k' : Nat}
    (h : Form t s vs z k) (h' : Form t s' vs' z' k') : s = s' ∧ vs = vs' ∧ z = z' ∧ k = k' := by
  obtain ⟨rfl, rfl⟩ := text_inj h.groups h'.groups (h.text.symm.trans h'.text)
  have hl := h.len
  have hl' := h'.len
  have hr := h.rest
  have hr' := h'.rest
  have hb := h.bits.symm.trans h'.bits
  obtain ⟨h1, h2⟩ := List.append_inj hb (by rw [length_bytesBits, length_bytesBits]; omega)
  exact ⟨bytesBits_inj h1, rfl, h2, rfl⟩

theorem decode_form (t s : Str) : b64Decode t = .ok s ↔ ∃ vs z k, Form t s vs z k := by
  rw [b64Decode_eq]
  constructor
  · intro h
    split at h
    · simp at h
    · exact decPure_form t (by omega) s h
  · rintro ⟨vs, z, k, h⟩
    have hl : t.length % 4 = 0 := by
      rw [h.text]; simpa using h.whole
    rw [if_neg (by omega)]
    obtain ⟨s', hs'⟩ := decPure_ok vs k h.groups h.pad h.whole
    rw [← h.text] at hs'
    obtain ⟨vs', z', k', h'⟩ := decPure_form t hl s' hs'
    rw [hs', (h.unique h').1]

end Verif.Enc

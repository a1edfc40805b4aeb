import Verif.Model.Elems

/-!
# C236: elements are read back as they were stored
-/

namespace Verif.Props

open Verif.Accept Verif.Elems

namespace El

theorem encode_length : ∀ (w : Nat) (z : Int), (encode w z).length = w
  | 0, _ => rfl
  | w + 1, z => by rw [encode, List.length_cons, encode_length]

theorem encode_take : ∀ {w r : Nat} (z : Int), r ≤ w → (encode w z).take r = encode r z
  | _, 0, _, _ => by simp [encode]
  | w + 1, r + 1, z, h => by
    rw [encode, encode, List.take_succ_cons, encode_take (w := w) (r := r) _ (by omega)]

theorem number_encode : ∀ (w : Nat) (z : Int), (number (encode w z) : Int) = z % 256 ^ w
  | 0, z => by simp [encode, number, Int.emod_one]
  | w + 1, z => by
    have ih := number_encode w (z / 256)
    have h256 : (0 : Int) < 256 ^ w := Int.pow_pos (by decide)
    have h1 : ((z % 256).toNat : Int) = z % 256 := Int.toNat_of_nonneg (Int.emod_nonneg _ (by decide))
    have hz : z = 256 * (z / 256) + z % 256 := (Int.mul_ediv_add_emod z 256).symm
    have hq : z / 256 = 256 ^ w * (z / 256 / 256 ^ w) + z / 256 % 256 ^ w := (Int.mul_ediv_add_emod _ _).symm
    have hr0 := Int.emod_nonneg (z / 256) (Int.ne_of_gt h256)
    have hr1 := Int.emod_lt_of_pos (z / 256) h256
    have hm0 := Int.emod_nonneg z (show (256 : Int) ≠ 0 by decide)
    have hm1 := Int.emod_lt_of_pos z (show (0 : Int) < 256 by decide)
    rw [encode, number, Int.natCast_add, Int.natCast_mul, ih, h1]
    have hz2 : z = (z % 256 + 256 * (z / 256 % 256 ^ w)) + 256 ^ (w + 1) * (z / 256 / 256 ^ w) := by
      have hp : (256 : Int) ^ (w + 1) = 256 * 256 ^ w := by rw [Int.pow_succ, Int.mul_comm]
      rw [hp, Int.mul_assoc]
      generalize z / 256 / 256 ^ w = q at hq ⊢
      generalize 256 ^ w * q = m at hq ⊢
      omega
    have hp : (256 : Int) ^ (w + 1) = 256 * 256 ^ w := by rw [Int.pow_succ, Int.mul_comm]
    have key : z % 256 ^ (w + 1) = z % 256 + 256 * (z / 256 % 256 ^ w) := by
      have h2 := congrArg (· % (256 : Int) ^ (w + 1)) hz2
      simp only [Int.add_mul_emod_self_left] at h2
      rw [h2, Int.emod_eq_of_lt (by omega) (by rw [hp]; omega)]
    rw [key]
    rfl

/-- In the range of a type. -/
def InRange (d : IntName) (z : Int) : Prop :=
  if signed d then -(256 ^ width d) ≤ 2 * z ∧ 2 * z < 256 ^ width d else 0 ≤ z ∧ z < 256 ^ width d

instance (d : IntName) (z : Int) : Decidable (InRange d z) := by unfold InRange; infer_instance

theorem decode_signed {w : Nat} {z : Int} (h : -(256 ^ w) ≤ 2 * z ∧ 2 * z < 256 ^ w) : decode true (encode w z) = z := by
  have hn := number_encode w z
  have hp : (0 : Int) < 256 ^ w := Int.pow_pos (by decide)
  rw [decode, encode_length]
  by_cases hz : 0 ≤ z
  · rw [Int.emod_eq_of_lt hz (by omega)] at hn
    have : ¬ (256 ^ w ≤ 2 * number (encode w z)) := fun hc => by
      have hc' : ((256 ^ w : Nat) : Int) ≤ ((2 * number (encode w z) : Nat) : Int) := Int.ofNat_le.2 hc
      rw [Int.natCast_mul, hn, Int.natCast_pow] at hc'
      have : ((256 : Nat) : Int) = 256 := rfl
      rw [this] at hc'
      have h2 := h.2
      omega
    simp [this, hn]
  · have hm : z % 256 ^ w = z + 256 ^ w := by
      have := Int.add_mul_emod_self_left z (256 ^ w) 1
      rw [Int.mul_one] at this
      rw [← this, Int.emod_eq_of_lt (by omega) (by omega)]
    rw [hm] at hn
    have : 256 ^ w ≤ 2 * number (encode w z) := by
      have hc' : ((256 ^ w : Nat) : Int) ≤ ((2 * number (encode w z) : Nat) : Int) := by
        rw [Int.natCast_mul, hn, Int.natCast_pow]
        have : ((256 : Nat) : Int) = 256 := rfl
        rw [this]
        have h1 := h.1
        omega
      exact Int.ofNat_le.1 hc'
    simp only [this, decide_true, Bool.and_self, if_true, hn]
    omega

theorem decode_unsigned {w : Nat} {z : Int} (h : 0 ≤ z ∧ z < 256 ^ w) : decode false (encode w z) = z := by
  have hn := number_encode w z
  rw [Int.emod_eq_of_lt h.1 h.2] at hn
  simp [decode, hn]

theorem decode_self {d : IntName} {z : Int} (h : InRange d z) : decode (signed d) (encode (width d) z) = z := by
  unfold InRange at h
  cases hs : signed d with
  | true => rw [if_pos hs] at h; exact decode_signed h
  | false => rw [if_neg (by simp [hs])] at h; exact decode_unsigned h

theorem allKnown_map : ∀ (l : List Nat), allKnown (l.map some) = some l
  | [] => rfl
  | b :: r => by rw [List.map_cons, allKnown, allKnown_map]; rfl

theorem flat_length (s : Nat) : ∀ (zs : List Int), (zs.flatMap (encode s)).length = zs.length * s
  | [] => by simp
  | z :: zs => by rw [List.flatMap_cons, List.length_append, flat_length s zs, encode_length, List.length_cons, Nat.succ_mul]; omega

theorem flat_drop (s : Nat) : ∀ (zs : List Int) (i : Nat), (zs.flatMap (encode s)).drop (i * s) = (zs.drop i).flatMap (encode s)
  | zs, 0 => by simp
  | [], i + 1 => by simp
  | z :: zs, i + 1 => by
    rw [List.flatMap_cons, List.drop_append, encode_length, List.drop_of_length_le (by rw [encode_length, Nat.succ_mul]; omega), Nat.succ_mul,
      Nat.add_sub_cancel, flat_drop s zs i]
    rfl

theorem flat_take (s : Nat) : ∀ (zs : List Int) (i : Nat), (zs.flatMap (encode s)).take (i * s) = (zs.take i).flatMap (encode s)
  | zs, 0 => by simp
  | [], i + 1 => by simp
  | z :: zs, i + 1 => by
    rw [List.flatMap_cons, List.take_append, encode_length, List.take_of_length_le (by rw [encode_length, Nat.succ_mul]; omega), Nat.succ_mul,
      Nat.add_sub_cancel, flat_take s zs i]
    rfl

theorem flat_window {s r i : Nat} {zs : List Int} {z : Int} (hz : zs[i]? = some z) (hr : r ≤ s) :
    ((zs.flatMap (encode s)).drop (i * s)).take r = encode r z := by
  obtain ⟨hi, rfl⟩ := List.getElem?_eq_some_iff.1 hz
  rw [flat_drop, List.drop_eq_getElem_cons hi, List.flatMap_cons, List.take_append_of_le_length (by rw [encode_length]; exact hr),
    encode_take _ hr]

/-- An array that has just these elements. -/
def holds (s : Nat) (zs : List Int) : Arr := ⟨s, (zs.flatMap (encode s)).map some⟩

theorem window_holds {s r i : Nat} {zs : List Int} {z : Int} (sg : Bool) (hz : zs[i]? = some z) (hr : r ≤ s) :
    window (holds s zs) sg (i * s) r = .value (decode sg (encode r z)) := by
  have hi := (List.getElem?_eq_some_iff.1 hz).1
  have hlen : ¬ (holds s zs).data.length < i * s + r := by
    simp only [holds, List.length_map, flat_length]
    have := Nat.mul_le_mul_right s (Nat.succ_le_of_lt hi)
    rw [Nat.succ_mul] at this
    omega
  rw [window, if_neg hlen]
  simp only [holds, ← List.map_drop, ← List.map_take, flat_window hz hr, allKnown_map]

theorem source_eq {w n : Nat} (z : Int) (h : n ≤ w) : source w n z = (encode n z).map some := by
  rw [source, List.take_append_of_le_length (by rw [List.length_map, encode_length]; exact h), ← List.map_take, encode_take z h]

/-- What the writes are to do. -/
def meantOp (zs : List Int) : Op → Option (List Int)
  | .set i z => if i < zs.length then some (zs.set i z) else none
  | .push z => some (zs ++ [z])

def meantRun : List Int → List Op → Option (List Int)
  | zs, [] => some zs
  | zs, o :: os => do meantRun (← meantOp zs o) os

/-- The variable of a write is as large as an element. -/
def writeFits (d : IntName) (s : Nat) : Op → Prop
  | .set _ _ => s ≤ width d
  | .push _ => s ≤ 8

theorem flat_set (s : Nat) (z : Int) : ∀ (zs : List Int) (i : Nat), i < zs.length →
    (zs.take i).flatMap (encode s) ++ encode s z ++ (zs.drop (i + 1)).flatMap (encode s) = (zs.set i z).flatMap (encode s)
  | y :: zs, 0, _ => by simp
  | y :: zs, i + 1, h => by
    simp only [List.take_succ_cons, List.flatMap_cons, List.drop_succ_cons, List.set_cons_succ, List.append_assoc]
    have := flat_set s z zs i (by simpa using h)
    rw [List.append_assoc] at this
    rw [this]

theorem write_holds {d : IntName} {s : Nat} (hs : 0 < s) {zs : List Int} {o : Op} (h : writeFits d s o) :
    write d (holds s zs) o = (meantOp zs o).map (holds s) := by
  cases o with
  | push z =>
    rw [write, meantOp]
    simp only [Option.map_some, holds, source_eq z h, List.flatMap_append, List.map_append, List.flatMap_cons, List.flatMap_nil, List.append_nil]
  | set i z =>
    have hlen : (holds s zs).data.length = zs.length * s := by simp only [holds, List.length_map, flat_length]
    rw [write, meantOp, hlen]
    by_cases c : i < zs.length
    · have : ¬ zs.length * s < i * (holds s zs).size + (holds s zs).size := by
        have := Nat.mul_le_mul_right s (Nat.succ_le_of_lt c)
        rw [Nat.succ_mul] at this
        simp only [holds]
        omega
      rw [if_neg this, if_pos c]
      simp only [Option.map_some, holds, source_eq z h, ← List.map_take, ← List.map_drop, ← List.map_append]
      rw [← Nat.succ_mul, flat_take, flat_drop, flat_set s z zs i c]
    · have : zs.length * s < i * (holds s zs).size + (holds s zs).size := by
        have := Nat.mul_le_mul_right s (Nat.le_of_not_lt c)
        simp only [holds]
        omega
      rw [if_pos this, if_neg c]
      rfl

theorem run_holds {d : IntName} {s : Nat} (hs : 0 < s) : ∀ {os : List Op} {zs : List Int}, (∀ o ∈ os, writeFits d s o) →
    run d (holds s zs) os = (meantRun zs os).map (holds s)
  | [], _, _ => rfl
  | o :: os, zs, h => by
    rw [run, meantRun, write_holds hs (h o (by simp))]
    cases hm : meantOp zs o with
    | none => rfl
    | some zs' => exact run_holds hs fun p hp => h p (by simp [hp])

/-- Elements of the type are read right in this way when they are stored in `s` bytes. -/
def readFits (d : IntName) (s : Nat) : Read → Prop
  | .index => if d = .byte then 1 ≤ s else 8 ≤ s
  | .peek => width d ≤ s
  | .take => s = width d
  | .walk => s = width d

/-- In the range in which a read is right: an index reads at a signed type. -/
def readRange (d : IntName) : Read → Int → Prop
  | .index => fun z => InRange d z ∧ 2 * z < 256 ^ 8
  | _ => InRange d

def narrow (d : IntName) : Prop := width d ≤ 8

instance (d : IntName) (s : Nat) (R : Read) : Decidable (readFits d s R) := by cases R <;> unfold readFits <;> infer_instance

instance (d : IntName) (R : Read) (z : Int) : Decidable (readRange d R z) := by cases R <;> unfold readRange <;> infer_instance

theorem range8 {d : IntName} (hn : narrow d) (hb : d ≠ .byte) {z : Int} (h : InRange d z) (h2 : 2 * z < 256 ^ 8) :
    -(256 ^ 8) ≤ 2 * z ∧ 2 * z < 256 ^ 8 := by
  refine ⟨?_, h2⟩
  unfold InRange at h
  cases d <;> simp only [signed, width, narrow] at h hn <;>
    first
    | (simp only [if_true] at h; have := h.1; simp at this ⊢; omega)
    | (simp only [Bool.false_eq_true, if_false] at h; have := h.1; simp; omega)
    | omega

theorem read_holds {d : IntName} (hn : narrow d) {s i : Nat} {zs : List Int} {z : Int} {R : Read} (hz : zs[i]? = some z)
    (hf : readFits d s R) (hr : readRange d R z) : readAt d (holds s zs) i R = .value z := by
  cases R with
  | index =>
    rw [readAt]
    unfold readFits at hf
    by_cases hb : d = .byte
    · subst hb
      rw [if_pos rfl] at hf ⊢
      have := decode_self (d := .byte) hr.1
      rw [show (holds s zs).size = s from rfl, window_holds false hz hf]
      exact congrArg _ this
    · rw [if_neg hb] at hf ⊢
      rw [show (holds s zs).size = s from rfl, window_holds true hz hf, decode_signed (range8 hn hb hr.1 hr.2)]
  | peek =>
    rw [readAt, show (holds s zs).size = s from rfl, window_holds _ hz hf, decode_self hr]
  | take =>
    subst hf
    rw [readAt, show (holds (width d) zs).size = width d from rfl, if_neg (Nat.lt_irrefl _), if_neg (Nat.lt_irrefl _), window_holds _ hz (Nat.le_refl _), decode_self hr]
  | walk =>
    subst hf
    rw [readAt, window_holds _ hz (Nat.le_refl _), decode_self hr]

end El

open El

/-- C236, the claim: after any writes, an element that is read in any way has the value that was last written there, if all
values are in the range of the type. -/
def C236_statement : Prop :=
  ∀ (d : IntName) (s : Src) (zs : List Int) (os : List Op) (zs' : List Int) (R : Read) (i : Nat) (z : Int), narrow d →
    (∀ y ∈ zs, InRange d y) → (∀ y ∈ zs', InRange d y) → meantRun zs os = some zs' → zs'[i]? = some z →
    ∃ a, run d (build d s zs) os = some a ∧ readAt d a i R = .value z

/-- C236: it holds whenever the variables of the writes are not smaller than an element, and the read fits the size of the
elements; with `a[i]` for values below 2⁶³. -/
theorem C236_partial (d : IntName) (s : Src) (zs : List Int) (os : List Op) (zs' : List Int) (R : Read) (i : Nat) (z : Int) (hn : narrow d)
    (hw : ∀ o ∈ os, writeFits d (srcSize d s) o) (hf : readFits d (srcSize d s) R) (hm : meantRun zs os = some zs') (hz : zs'[i]? = some z)
    (hr : readRange d R z) : ∃ a, run d (build d s zs) os = some a ∧ readAt d a i R = .value z := by
  have hs : 0 < srcSize d s := by cases s <;> cases d <;> simp [srcSize, width]
  refine ⟨holds (srcSize d s) zs', ?_, read_holds hn hz hf hr⟩
  have := run_holds (d := d) hs (zs := zs) hw
  rw [hm] at this
  exact this

/-- C236: with elements of type `int` or `i64` it holds in all cases. -/
theorem C236_int_partial (d : IntName) (hd : d = .int ∨ d = .i64) (s : Src) (zs : List Int) (os : List Op) (zs' : List Int) (R : Read) (i : Nat) (z : Int)
    (hm : meantRun zs os = some zs') (hz : zs'[i]? = some z) (hr : InRange d z) :
    ∃ a, run d (build d s zs) os = some a ∧ readAt d a i R = .value z := by
  rcases hd with rfl | rfl <;>
  · refine C236_partial _ s zs os zs' R i z (by unfold narrow; decide) (fun o _ => ?_) ?_ hm hz ?_
    · cases s <;> cases o <;> simp [writeFits, srcSize, width]
    · cases s <;> cases R <;> simp [readFits, srcSize, width]
    · unfold InRange at hr
      cases R <;> simp only [readRange] <;> first | exact hr | exact ⟨hr, hr.2⟩

/-- C236: `mut a [i32] = {1, 2}` and `a[0] = 5`: four of the eight bytes that are stored are not those of the value. -/
theorem C236_witness_set : ∀ d : IntName, width d < 8 → d ≠ .byte →
    (run d (build d .lit [1, 2]) [.set 0 5]).map (readAt d · 0 .index) = some .garbage := by
  intro d hd hb
  cases d <;> simp [width] at hd hb <;> decide

/-- C236: `mut a [i32] = {}` and `arrays.append(a, 1)`, `arrays.append(a, 2)`, `arrays.append(a, 3)`: `a[0]` is not 1. -/
theorem C236_witness_made : (run .i32 (build .i32 .made []) [.push 1, .push 2, .push 3]).map (readAt .i32 · 0 .index) = some (.value 8589934593) ∧
    (run .i32 (build .i32 .made []) [.push 1, .push 2, .push 3]).map (readAt .i32 · 2 .index) = some .garbage := by
  decide

/-- C236: `remove_last` on `mut a [u8] = {1, 2}` writes eight bytes into a variable of one byte. -/
theorem C236_witness_take : ∀ d : IntName, width d < 8 → readAt d (build d .lit [1, 2]) 1 .take = .smash := by
  intro d hd
  cases d <;> simp [width] at hd <;> decide

/-- C236: `arrays.map` over `mut a [i32] = {1, 2}` sees 1 and 0. -/
theorem C236_witness_walk : readAt .i32 (build .i32 .lit [1, 2]) 1 .walk = .value 0 := by decide

/-- C236: `a[0]` of `mut a [uint] = {18446744073709551615}` is -1 in C. -/
theorem C236_witness_uint : readAt .uint (build .uint .lit [18446744073709551615]) 0 .index = .value (-1) := by decide

theorem C236_fails : ¬ C236_statement := fun h => by
  obtain ⟨a, h1, h2⟩ := h .i32 .lit [1, 2] [] [1, 2] .walk 1 2 (by unfold narrow; decide) (by decide) (by decide) rfl rfl
  cases h1
  rw [C236_witness_walk] at h2
  cases h2

/-- C236: the condition on reads is exact: for each type, way to make an array and way to read, the elements of all arrays are
read right just if it holds. -/
theorem C236_exact_partial (d : IntName) (hn : narrow d) (s : Src) (R : Read) :
    readFits d (srcSize d s) R ↔
      ∀ (zs : List Int) (i : Nat) (z : Int), zs[i]? = some z → readRange d R z → readAt d (build d s zs) i R = .value z := by
  refine ⟨fun hf zs i z hz hr => read_holds hn hz hf hr, fun h => ?_⟩
  have h2 := h [1, 2] 1 2 rfl
  revert h2 hn
  unfold narrow
  cases d <;> cases s <;> cases R <;> decide

/-- C236: for a type of fewer than eight bytes other than `byte`, no array is read right both by `a[i]` and by `arrays.map`: one
needs the size of a literal, the other that of the type. -/
theorem C236_no_size_partial (d : IntName) (hd : width d < 8) (hb : d ≠ .byte) (s : Nat) : ¬ (readFits d s .index ∧ readFits d s .walk) := by
  unfold readFits
  simp only [if_neg hb]
  omega

example : (run .i32 (build .i32 .lit [1, 2]) [.push 3]).map (readAt .i32 · 2 .index) = some (.value 3) := by decide
example : (run .i16 (build .i16 .made []) [.push 3, .set 0 (-4)]).map (readAt .i16 · 0 .walk) = some (.value (-4)) := by decide
example : InRange .i8 (-128) ∧ ¬ InRange .i8 128 ∧ InRange .u64 18446744073709551615 := by decide

end Verif.Props

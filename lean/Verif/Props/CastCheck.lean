import Verif.Model.CastCheck
import Verif.Props.IntOps
/-
C327–C330: which casts are accepted and compile, casts to enums and to names that are no types, casts of arrays.
-/
namespace Verif.Props
open Verif.Operators Verif.CastCheck Verif.IntOps

namespace Cc

def kinds : List K :=
  [.int, .uint, .byte, .i128, .i256, .u128, .u256, .float, .bool, .char, .string, .array, .map, .struct,
   .enumInt, .enumStr, .enumTag, .pointer, .error, .func, .nil, .void]

theorem mem_kinds (k : K) : k ∈ kinds := by cases k <;> decide

/-- The kinds of value that the target of a cast can have -/
def target : K → Bool
  | .int | .uint | .byte | .i128 | .i256 | .u128 | .u256 | .float | .bool | .char | .string | .array | .map | .struct
  | .enumInt | .enumStr | .enumTag | .error => true
  | _ => false

/-- The C expressions that hold values of a kind -/
def fitsC : K → C → Bool
  | .int, .whole | .uint, .whole | .byte, .whole | .bool, .whole | .char, .whole | .enumInt, .whole => true
  | .float, .real | .error, .ptr => true
  | .i128, .big .i128 | .i256, .big .i256 | .u128, .big .u128 | .u256, .big .u256 => true
  | .string, .agg | .array, .agg | .enumStr, .agg | .enumTag, .agg => true
  | _, _ => false

/-- The cast is emitted as an expression of the C type of its target. -/
def Works (src dst : K) (same : Bool) : Prop := ∃ c, castText src dst same = some c ∧ fitsC dst c = true

def integral : K → Bool
  | .int | .uint | .i128 | .i256 | .u128 | .u256 => true
  | _ => false

/-- Enums of strings and tagged enums -/
def heavy : K → Bool
  | .enumStr | .enumTag => true
  | _ => false

/-- Accepted casts that do not work: strings to strings, enums of strings and tagged enums from and to integers, enums of
different shapes or different tagged enums, and the wide integers without a function between them -/
def spoilt (same : Bool) : K → K → Bool
  | .string, .string => true
  | .enumInt, .enumStr | .enumInt, .enumTag | .enumStr, .enumInt | .enumStr, .enumTag | .enumTag, .enumInt | .enumTag, .enumStr => true
  | .enumTag, .enumTag => !same
  | .i128, .u256 | .u128, .i256 | .i256, .u128 | .i256, .u256 | .u256, .i128 | .u256, .i256 => true
  | s, d => (heavy s && integral d) || (integral s && heavy d)

/-- The casts of STANDARD.md 3.4 and 3.2.4: between numbers (characters and bools too), from these to strings, between enums and
integers, of arrays of numbers, and to the type that a value has -/
def isNumber : K → Bool
  | .int | .uint | .byte | .i128 | .i256 | .u128 | .u256 | .float | .char => true
  | _ => false

def isEnumK : K → Bool
  | .enumInt | .enumStr | .enumTag => true
  | _ => false

def listed (es ed : K) : K → K → Bool
  | .bool, .bool | .bool, .string | .string, .string | .pointer, .pointer | .error, .error | .func, .func | .nil, .nil
  | .void, .void => true
  | .array, .array => isNumber es && isNumber ed
  | s, .string => isNumber s
  | s, .bool => isNumber s
  | .bool, d => isNumber d
  | s, d => (isNumber s && isNumber d) || (isEnumK s && isEnumK d) || (isEnumK s && integral d) || (integral s && isEnumK d)

def works (s d : K) (same : Bool) : Bool := (castText s d same).any (fitsC d)

def castP (s d : K) (same : Bool) : Bool := !target d || !allowed s d .int .int || (works s d same == !spoilt same s d)

set_option maxRecDepth 100000 in
theorem cast_same : (kinds.all fun k => castP k k true) = true := by decide +kernel

set_option maxRecDepth 100000 in
theorem cast_other : (kinds.all fun s => kinds.all fun d => castP s d false) = true := by decide +kernel

set_option maxRecDepth 100000 in
theorem listed_table : (kinds.all fun s => kinds.all fun d => s == .array && d == .array ||
    (allowed s d .int .int == listed .int .int s d)) = true := by decide +kernel

set_option maxRecDepth 100000 in
theorem elems_table : (kinds.all fun s => kinds.all fun d => allowed .array .array s d == (isNumber s && isNumber d)) = true := by
  decide +kernel

theorem allowed_elems (s d a b : K) (h : ¬ (s = .array ∧ d = .array)) : allowed s d a b = allowed s d .int .int := by
  unfold allowed
  have : (s == K.array && d == K.array) = false := by
    cases hq : (s == K.array && d == K.array) with
    | false => rfl
    | true =>
      have := Bool.and_eq_true_iff.1 hq
      exact absurd ⟨beq_iff_eq.1 this.1, beq_iff_eq.1 this.2⟩ h
  rw [this]
  simp only [Bool.false_and]

end Cc

open Cc

/-! ### C327: accepted casts work -/

/-- C327: a cast that is accepted compiles to an expression of the C type of its target. -/
def C327_statement : Prop := ∀ src dst es ed same, target dst = true → (same = true → src = dst) →
  allowed src dst es ed = true → Works src dst same

/-- `cast("a", string)` gives a string to the function for integers; `cast(w, u256)` of an `i128` is still an `i128`; enums of strings and
tagged enums are no numbers. -/
theorem C327_witness :
    (allowed .string .string .int .int = true ∧ castText .string .string true = none) ∧
    (allowed .i128 .u256 .int .int = true ∧ castText .i128 .u256 false = some (.big .i128)) ∧
    (allowed .enumStr .int .int .int = true ∧ castText .enumStr .int false = none) ∧
    (allowed .int .enumTag .int .int = true ∧ castText .int .enumTag false = none) := by decide

theorem C327_fails : ¬ C327_statement := fun h => by
  obtain ⟨c, hc, _⟩ := h .string .string .int .int true rfl (fun _ => rfl) C327_witness.1.1
  rw [C327_witness.1.2] at hc; cases hc

/-- Missing: the casts of `spoilt`. Exactly these of the accepted ones do not work. -/
theorem C327_partial (src dst es ed : K) (same : Bool) (ht : target dst = true) (hs : same = true → src = dst)
    (ha : allowed src dst es ed = true) : Works src dst same ↔ spoilt same src dst = false := by
  by_cases hh : src = .array ∧ dst = .array
  · obtain ⟨rfl, rfl⟩ := hh
    refine ⟨fun _ => rfl, fun _ => ⟨.agg, ?_, rfl⟩⟩
    cases same <;> rfl
  rw [allowed_elems src dst es ed hh] at ha
  have t : castP src dst same = true := by
    cases same with
    | true => obtain rfl := hs rfl; exact List.all_eq_true.1 cast_same _ (mem_kinds _)
    | false => exact List.all_eq_true.1 (List.all_eq_true.1 cast_other _ (mem_kinds _)) _ (mem_kinds _)
  unfold castP at t
  rw [ht, ha] at t
  have t' : works src dst same = !spoilt same src dst := beq_iff_eq.1 (by simpa using t)
  have hw : Works src dst same ↔ works src dst same = true := by
    unfold Works works
    cases castText src dst same <;> simp
  rw [hw, t']
  cases spoilt same src dst <;> simp

/-- What is accepted: the casts listed. -/
theorem C327_accepted (src dst es ed : K) : allowed src dst es ed = listed es ed src dst := by
  by_cases hh : src = .array ∧ dst = .array
  · obtain ⟨rfl, rfl⟩ := hh
    exact beq_iff_eq.1 (List.all_eq_true.1 (List.all_eq_true.1 elems_table es (mem_kinds _)) ed (mem_kinds _))
  · rw [allowed_elems src dst es ed hh]
    have t := List.all_eq_true.1 (List.all_eq_true.1 listed_table src (mem_kinds _)) dst (mem_kinds _)
    have hn : (src == K.array && dst == K.array) = false := by
      cases hq : (src == K.array && dst == K.array) with
      | false => rfl
      | true =>
        have := Bool.and_eq_true_iff.1 hq
        exact absurd ⟨beq_iff_eq.1 this.1, beq_iff_eq.1 this.2⟩ hh
    rw [hn, Bool.false_or] at t
    rw [beq_iff_eq.1 t]
    revert hh; cases src <;> cases dst <;> intro hh <;> first | rfl | exact absurd ⟨rfl, rfl⟩ hh

example : Works .i128 .u128 false := ⟨.big .u128, rfl, rfl⟩
example : Works .float .int false ∧ spoilt false .float .int = false := ⟨⟨.whole, rfl, rfl⟩, rfl⟩

/-! ### C328: the elements of arrays -/

namespace Cc

theorem bytes_length (n : Nat) (v : Int) : (bytesOf n v).length = n := by
  induction n generalizing v with
  | zero => rfl
  | succ n ih => simp [bytesOf, ih]

theorem take_bytes {m n : Nat} (h : m ≤ n) (v : Int) : (bytesOf n v).take m = bytesOf m v := by
  induction m generalizing n v with
  | zero => simp [bytesOf]
  | succ m ih =>
    cases n with
    | zero => omega
    | succ n =>
      show (v % 256 :: bytesOf n (v / 256)).take (m + 1) = _
      rw [List.take_succ_cons, ih (by omega)]
      rfl

theorem number_bytes (n : Nat) (v : Int) : numberOf (bytesOf n v) = v % 256 ^ n := by
  induction n generalizing v with
  | zero => simp [bytesOf, numberOf, Int.emod_one]
  | succ n ih =>
    show v % 256 + 256 * numberOf (bytesOf n (v / 256)) = _
    rw [ih]
    have hp : (0 : Int) < 256 ^ n := Int.pow_pos (by decide)
    have e1 := Int.emod_add_mul_ediv v 256
    have e2 := Int.emod_add_mul_ediv (v / 256) (256 ^ n)
    have b1 := Int.emod_nonneg v (b := 256) (by decide)
    have b2 := Int.emod_lt_of_pos v (b := 256) (by decide)
    have b3 := Int.emod_nonneg (v / 256) (b := 256 ^ n) (by omega)
    have b4 := Int.emod_lt_of_pos (v / 256) hp
    have key : v = (v % 256 + 256 * (v / 256 % 256 ^ n)) + 256 ^ (n + 1) * (v / 256 / 256 ^ n) := by
      rw [Int.pow_succ, Int.mul_assoc, Int.mul_left_comm, Int.add_assoc, ← Int.mul_add, e2, e1]
    have lt : v % 256 + 256 * (v / 256 % 256 ^ n) < 256 ^ (n + 1) := by
      rw [Int.pow_succ]; omega
    have ge : 0 ≤ v % 256 + 256 * (v / 256 % 256 ^ n) := by omega
    generalize hx : v % 256 + 256 * (v / 256 % 256 ^ n) = x at *
    rw [key, Int.add_mul_emod_self_left, Int.emod_eq_of_lt ge lt]

theorem drop_flatMap (n : Nat) (vs : List Int) (i : Nat) :
    (vs.flatMap (bytesOf n)).drop (i * n) = (vs.drop i).flatMap (bytesOf n) := by
  induction vs generalizing i with
  | nil => simp
  | cons v vs ih =>
    cases i with
    | zero => simp
    | succ i =>
      rw [List.flatMap_cons, List.drop_succ_cons, ← ih i]
      have : (i + 1) * n = (bytesOf n v).length + i * n := by rw [bytes_length, Nat.succ_mul, Nat.add_comm]
      rw [this, List.drop_append]
      simp

/-- The element read, if the target is not larger -/
theorem castElem_eq (src dst : IntTy) (vs : List Int) (i : Nat) (v : Int) (hv : vs[i]? = some v)
    (hw : CastCheck.sizeOf dst ≤ CastCheck.sizeOf src) :
    castElem src dst vs i = some (conv (cTy dst) (v % 256 ^ CastCheck.sizeOf dst)) := by
  obtain ⟨hi, rfl⟩ := List.getElem?_eq_some_iff.1 hv
  have hc : ((memory src vs).drop (i * CastCheck.sizeOf src)).take (CastCheck.sizeOf dst) = bytesOf (CastCheck.sizeOf dst) vs[i] := by
    unfold memory
    rw [drop_flatMap, List.drop_eq_getElem_cons hi, List.flatMap_cons, List.take_append_of_le_length (by rw [bytes_length]; exact hw),
      take_bytes hw]
  unfold castElem
  dsimp only
  rw [hc, bytes_length, number_bytes, if_neg (Nat.lt_irrefl _)]

/-- The bits of a type -/
def bitsOf : IntTy → Nat
  | .i8 | .u8 | .byte => 8
  | .i16 | .u16 => 16
  | .i32 | .u32 | .char => 32
  | .i64 | .int | .u64 | .uint => 64

end Cc

/-- C328 (STANDARD.md 3.4.1): a cast of an array converts each element to the target type; one that is out of range stops the
program, so that no element is read. -/
def C328_statement : Prop := ∀ (src dst : IntTy) (vs : List Int), (∀ v ∈ vs, InTy src v) → ∀ i v, vs[i]? = some v →
  (InTy dst v → castElem src dst vs i = some v) ∧ (¬ InTy dst v → castElem src dst vs i = none)

/-- `cast({300}, [u8])` has the element 44; `cast(bytes, [int])` reads past the end, and eight bytes as one number. -/
theorem C328_witness : castElem .int .u8 [300] 0 = some 44 ∧ castElem .u8 .int [1, 2, 3] 0 = none ∧
    castElem .u8 .int [1, 1, 0, 0, 0, 0, 0, 0] 0 = some 257 ∧ castElem .int .i8 [200] 0 = some (-56) := by decide +kernel

theorem C328_fails : ¬ C328_statement := fun h => by
  have := (h .int .u8 [300] (by intro v hv; rw [List.mem_singleton.1 hv]; simp only [InTy, loTy, hiTy]; omega) 0 300 rfl).2
    (by simp only [InTy, loTy, hiTy]; omega)
  rw [C328_witness.1] at this; cases this

/-- Missing: targets that are larger than the elements, and elements out of the range of the target, which are cut to its width
and not reported. Elements in range keep their values. -/
theorem C328_partial (src dst : IntTy) (vs : List Int) (i : Nat) (v : Int) (hv : vs[i]? = some v) (hw : bitsOf dst ≤ bitsOf src) :
    (InTy dst v → castElem src dst vs i = some v) ∧
    ∃ x, castElem src dst vs i = some x ∧ InTy dst x ∧ (2 ^ bitsOf dst : Int) ∣ v - x := by
  have hsz : CastCheck.sizeOf dst ≤ CastCheck.sizeOf src := by
    revert hw; cases src <;> cases dst <;> decide
  rw [castElem_eq src dst vs i v hv hsz]
  constructor
  · intro h
    congr 1
    revert h
    cases dst <;> simp only [InTy, loTy, hiTy, CastCheck.sizeOf, cTy, conv] <;> intro h <;>
      simp only [if_true, if_false, Bool.false_eq_true, Int.bmod_def] <;> (try split) <;> omega
  · refine ⟨_, rfl, ?_, ?_⟩
    · cases dst <;> simp only [InTy, loTy, hiTy, CastCheck.sizeOf, cTy, conv] <;>
        simp only [if_true, if_false, Bool.false_eq_true, Int.bmod_def] <;> (try split) <;> omega
    · cases dst <;> simp only [bitsOf, CastCheck.sizeOf, cTy, conv] <;>
        simp only [if_true, if_false, Bool.false_eq_true, Int.bmod_def] <;> (try split) <;> omega

/-- The last element of an array cast to a larger type is read past the end. -/
theorem C328_past (src dst : IntTy) (vs : List Int) (v : Int) (hw : bitsOf src < bitsOf dst) :
    castElem src dst (vs ++ [v]) vs.length = none := by
  have hsz : CastCheck.sizeOf src < CastCheck.sizeOf dst := by
    revert hw; cases src <;> cases dst <;> decide
  unfold castElem memory
  dsimp only
  rw [drop_flatMap, List.drop_left]
  rw [if_pos (by simp [bytes_length]; omega)]

example : castElem .int .u8 [1, 200, 255] 1 = some 200 := by decide +kernel

/-! ### C329: casts to enums -/

/-- C329 (STANDARD.md 3.2.4, the tip): an integer can be cast to an enum, whatever has been checked before. -/
def C329_statement : Prop := ∀ (seen : List (List Char)) (e : List Char) (c : Char) (cs : List Char), e = c :: cs → upper c = true →
  e ≠ "Error".toList → accepts seen .int e = true

/-- `cast(0, Direction)` is an error if it is the first use of the enum. -/
theorem C329_witness : accepts [] .int "Direction".toList = false ∧ accepts ["Direction".toList] .int "Direction".toList = true := by
  decide +kernel

theorem C329_fails : ¬ C329_statement := fun h => by
  have := h [] "Direction".toList 'D' "irection".toList (by decide) (by decide) (by decide)
  rw [C329_witness.1] at this; cases this

namespace Cc

/-- Names that begin with a capital letter are no built-in ones, but for one. -/
theorem find_upper (c : Char) (cs : List Char) (hc : upper c = true) (he : c :: cs ≠ "Error".toList) :
    builtins.find? (fun b => b.1.toList == c :: cs) = none := by
  rw [List.find?_eq_none]
  intro b hb hq
  have hn := beq_iff_eq.1 hq
  have hall : (builtins.all fun b => b.1.toList == "Error".toList || !(b.1.toList.head?.any upper)) = true := by decide +kernel
  have := List.all_eq_true.1 hall b hb
  rw [hn] at this
  rcases (Bool.or_eq_true _ _ ▸ this) with q | q
  · exact he (beq_iff_eq.1 q)
  · simp [hc] at q

theorem fromName_upper (seen : List (List Char)) (c : Char) (cs : List Char) (hc : upper c = true) (he : c :: cs ≠ "Error".toList) :
    fromName seen (c :: cs) = some (if seen.contains (c :: cs) then .enumInt else .struct) := by
  unfold fromName
  rw [find_upper c cs hc he]
  show (if upper c = true then _ else _) = _
  rw [if_pos hc]

end Cc

/-- Missing: the first use. A cast to an enum is accepted exactly when its type has been made before, by a declaration or a use that
the checker came across earlier. -/
theorem C329_partial (seen : List (List Char)) (e : List Char) (c : Char) (cs : List Char) (he : e = c :: cs) (hc : upper c = true)
    (hn : e ≠ "Error".toList) : accepts seen .int e = true ↔ e ∈ seen := by
  subst he
  unfold accepts
  rw [fromName_upper seen c cs hc hn]
  cases hs : seen.contains (c :: cs) with
  | true => exact ⟨fun _ => List.contains_iff_mem.1 hs, fun _ => by rfl⟩
  | false =>
    refine ⟨fun h => absurd h (by decide), fun h => ?_⟩
    rw [List.contains_iff_mem.2 h] at hs; cases hs

example : "Color".toList ∈ ["Color".toList] := by decide

/-! ### C330: targets that are no types -/

namespace Cc

/-- The names of types of values that the language has -/
def typeNames : List (List Char) :=
  ["int", "i8", "i16", "i32", "i64", "i128", "i256", "uint", "u8", "u16", "u32", "u64", "u128", "u256", "byte", "char", "float", "f32",
   "f64", "bool", "string", "Error"].map String.toList

end Cc

/-- C330: a cast is accepted only if its target is the name of a type: a built-in one, or a declared one. -/
def C330_statement : Prop := ∀ (declared seen : List (List Char)) (src : K) (name : List Char), (∀ e ∈ seen, e ∈ declared) →
  src ≠ .void → src ≠ .nil → accepts seen src name = true → name ∈ typeNames ∨ name ∈ declared

/-- `cast(x, foo)` and `cast(x, 5)` are accepted. -/
theorem C330_witness : accepts [] .int "foo".toList = true ∧ accepts [] .struct "5".toList = true ∧
    accepts [] .map "+".toList = true := by decide +kernel

theorem C330_fails : ¬ C330_statement := fun h => by
  rcases h [] [] .int "foo".toList (fun _ q => nomatch q) (by decide) (by decide) C330_witness.1 with q | q
  · revert q; decide +kernel
  · cases q

/-- Missing: names that do not begin with a capital letter. Those that do are accepted only if they are declared enums, or `Error`. -/
theorem C330_partial (declared seen : List (List Char)) (src : K) (c : Char) (cs : List Char) (hd : ∀ e ∈ seen, e ∈ declared)
    (hc : upper c = true) (h : accepts seen src (c :: cs) = true) : c :: cs ∈ typeNames ∨ c :: cs ∈ declared := by
  by_cases he : c :: cs = "Error".toList
  · left; rw [he]; decide +kernel
  · right
    unfold accepts at h
    rw [fromName_upper seen c cs hc he] at h
    cases hs : seen.contains (c :: cs) with
    | true => exact hd _ (List.contains_iff_mem.1 hs)
    | false =>
      rw [hs] at h
      exfalso
      have h' : allowed src .struct .int .int = true := h
      revert h'; cases src <;> decide

/-- Names in small letters without a `_` before a capital are not looked at, unless they are built-in ones. -/
theorem C330_small (seen : List (List Char)) (src : K) (name : List Char) (h1 : ∀ c ∈ name, upper c = false)
    (h2 : builtins.find? (fun b => b.1.toList == name) = none) : accepts seen src name = true := by
  unfold accepts fromName
  rw [h2]
  cases name with
  | nil => rfl
  | cons c cs =>
    dsimp only
    rw [h1 c (List.mem_cons_self ..)]
    cases hd : (c :: cs).dropWhile (· != '_') with
    | nil => rfl
    | cons a as =>
      cases as with
      | nil => rfl
      | cons d ds =>
        have hm : d ∈ c :: cs := by
          have : d ∈ (c :: cs).dropWhile (· != '_') := by rw [hd]; simp
          exact (List.dropWhile_sublist _).subset this
        dsimp only
        rw [h1 d hm]
        rfl

example : accepts [] .int "Point".toList = false := by decide +kernel

end Verif.Props

import Verif.Model.Operators
/-
C323–C326: which operators are accepted on which operands, which of these compile, and the types of the results.
-/
namespace Verif.Props
open Verif.Operators

namespace Ob

/-! ### Finite checks -/

def allOps : List Bin :=
  [.add, .sub, .mul, .div, .mod, .eq, .ne, .lt, .gt, .le, .ge, .and, .or, .band, .bor, .bxor, .shl, .shr]

def allKinds : List K :=
  [.int, .uint, .byte, .i128, .i256, .u128, .u256, .float, .bool, .char, .string, .array, .map, .struct,
   .enumInt, .enumStr, .enumTag, .pointer, .error, .func, .nil, .void]

theorem mem_ops (o : Bin) : o ∈ allOps := by cases o <;> decide

theorem mem_kinds (k : K) : k ∈ allKinds := by cases k <;> decide

/-- What holds of all the kinds and both answers about the names, holds of all operands; equal names come with equal kinds. -/
theorem all_pairs {p : Bin → K → K → Bool → Bool}
    (h1 : (allOps.all fun o => allKinds.all fun k => p o k k true) = true)
    (h2 : (allOps.all fun o => allKinds.all fun l => allKinds.all fun r => p o l r false) = true)
    (o : Bin) (l r : K) (s : Bool) (hs : s = true → l = r) : p o l r s = true := by
  cases s with
  | true =>
    obtain rfl := hs rfl
    exact List.all_eq_true.1 (List.all_eq_true.1 h1 o (mem_ops o)) l (mem_kinds l)
  | false =>
    exact List.all_eq_true.1 (List.all_eq_true.1 (List.all_eq_true.1 h2 o (mem_ops o)) l (mem_kinds l)) r (mem_kinds r)

/-! ### The words of the statements -/

/-- The checker accepts `l op r`. -/
def Accepted (op : Bin) (l r : Opd) : Prop := rejected op l.k r.k (l.name == r.name) = false

/-- The text emitted for it compiles. -/
def Compiles (op : Bin) (l r : Opd) : Prop := (emit op l.k r.k (l.name == r.name)).isSome = true

/-- Types of one name are of one kind. -/
def Agree (l r : Opd) : Prop := l.name = r.name → l.k = r.k

def isWide : K → Bool
  | .i128 | .i256 | .u128 | .u256 => true
  | _ => false
/-- Kinds that are structs in C, the wide integers and strings aside -/
def isAgg : K → Bool
  | .array | .map | .struct | .enumStr | .enumTag => true
  | _ => false
/-- Kinds that are pointers in C, and of which the checks of arithmetic and ordering say nothing -/
def isHandle : K → Bool
  | .error | .func => true
  | _ => false
def isInteger : K → Bool
  | .int | .uint | .byte | .i128 | .i256 | .u128 | .u256 => true
  | _ => false
def isFloat : K → Bool
  | .float => true
  | _ => false
def isStruct : K → Bool
  | .struct => true
  | _ => false
/-- Both errors, or both functions -/
def twoHandles : K → K → Bool
  | .error, .error | .func, .func => true
  | _, _ => false

/-- The groups of operators: arithmetic, comparison, logic, bits -/
inductive Group where
  | arith | equal | order | logic | bits

def group : Bin → Group
  | .add | .sub | .mul | .div | .mod => .arith
  | .eq | .ne => .equal
  | .lt | .gt | .le | .ge => .order
  | .and | .or => .logic
  | .band | .bor | .bxor | .shl | .shr => .bits

/-- The operators and operands that are accepted and do not compile -/
def broken (op : Bin) (l r : K) (same : Bool) : Bool :=
  match group op with
  | .logic => isWide l || isAgg l || isWide r || isAgg r
  | .bits => isWide l || isWide r
  | .equal => isStruct l || isStruct r || (twoHandles l r && !same)
  | .order =>
    isAgg l || isAgg r || ((isHandle l || isHandle r) && !isWide l && !isWide r && !(twoHandles l r && same))
  | .arith =>
    match op with
    | .add => (isHandle l && (isHandle r || isFloat r)) || (isHandle r && isFloat l)
    | .sub => (isHandle r && !isWide l && !(twoHandles l r && same)) || (isHandle l && isFloat r)
    | _ => (isHandle l || isHandle r) && !isWide l && !isWide r

/-- Numbers, bools, characters, strings, enums of numbers, pointers; wide integers where the operator computes or compares -/
def ordinary (op : Bin) : K → Bool
  | .int | .uint | .byte | .float | .bool | .char | .string | .enumInt | .pointer | .nil | .void => true
  | .i128 | .i256 | .u128 | .u256 =>
    match group op with
    | .arith | .equal | .order => true
    | _ => false
  | _ => false

def brokenP (o : Bin) (l r : K) (s : Bool) : Bool := rejected o l r s || ((emit o l r s).isNone == broken o l r s)

set_option maxRecDepth 100000 in
theorem broken_same : (allOps.all fun o => allKinds.all fun k => brokenP o k k true) = true := by decide +kernel

set_option maxRecDepth 100000 in
theorem broken_other : (allOps.all fun o => allKinds.all fun l => allKinds.all fun r => brokenP o l r false) = true := by
  decide +kernel

theorem ordinary_not_broken : (allOps.all fun o => allKinds.all fun l => allKinds.all fun r =>
    (!ordinary o l || !ordinary o r || !broken o l r true) && (!ordinary o l || !ordinary o r || !broken o l r false)) = true := by
  decide +kernel

theorem same_kind {l r : Opd} (ha : Agree l r) : (l.name == r.name) = true → l.k = r.k := fun h => ha (beq_iff_eq.1 h)

end Ob

open Ob

/-! ### C323: what is accepted compiles -/

/-- C323: an operator that the checker accepts on two variables compiles. -/
def C323_statement : Prop := ∀ op l r, Agree l r → Accepted op l r → Compiles op l r

/-- A struct may be compared with an integer, arrays and maps are operands of `&&`, wide integers of `bit_and`. -/
theorem C323_witness :
    (Accepted .eq ⟨.struct, "P"⟩ ⟨.int, "int"⟩ ∧ ¬ Compiles .eq ⟨.struct, "P"⟩ ⟨.int, "int"⟩) ∧
    (Accepted .and ⟨.array, "[int]"⟩ ⟨.map, "map[string:int]"⟩ ∧ ¬ Compiles .and ⟨.array, "[int]"⟩ ⟨.map, "map[string:int]"⟩) ∧
    (Accepted .band ⟨.i128, "i128"⟩ ⟨.i128, "i128"⟩ ∧ ¬ Compiles .band ⟨.i128, "i128"⟩ ⟨.i128, "i128"⟩) ∧
    (Accepted .lt ⟨.array, "[int]"⟩ ⟨.int, "int"⟩ ∧ ¬ Compiles .lt ⟨.array, "[int]"⟩ ⟨.int, "int"⟩) ∧
    (Accepted .mul ⟨.error, "Error"⟩ ⟨.int, "int"⟩ ∧ ¬ Compiles .mul ⟨.error, "Error"⟩ ⟨.int, "int"⟩) := by
  unfold Accepted Compiles; decide

theorem C323_fails : ¬ C323_statement := fun h =>
  C323_witness.1.2 (h _ _ _ (fun q => absurd q (by decide)) C323_witness.1.1)

/-- Exactly these of the accepted ones do not compile. -/
theorem C323_exactly (op : Bin) (l r : Opd) (ha : Agree l r) (h : Accepted op l r) :
    ¬ Compiles op l r ↔ broken op l.k r.k (l.name == r.name) = true := by
  have t := all_pairs (p := brokenP) broken_same broken_other op l.k r.k (l.name == r.name) (same_kind ha)
  unfold Accepted at h
  unfold Compiles
  unfold brokenP at t
  rw [h, Bool.false_or] at t
  have t' := beq_iff_eq.1 t
  rw [← t']
  cases emit op l.k r.k (l.name == r.name) <;> simp

/-- Missing: operands that are errors, functions, arrays, maps, structs, enums of strings and tagged enums, and wide integers with
the logical and the bit operators. On the others what is accepted compiles. -/
theorem C323_partial (op : Bin) (l r : Opd) (ha : Agree l r) (h : Accepted op l r)
    (hl : ordinary op l.k = true) (hr : ordinary op r.k = true) : Compiles op l r := by
  have t := Bool.and_eq_true_iff.1 (List.all_eq_true.1 (List.all_eq_true.1 (List.all_eq_true.1 ordinary_not_broken op (mem_ops op))
    l.k (mem_kinds _)) r.k (mem_kinds _))
  have hb : broken op l.k r.k (l.name == r.name) = false := by
    rw [hl, hr] at t
    cases (l.name == r.name)
    · simpa using t.2
    · simpa using t.1
  cases hc : (emit op l.k r.k (l.name == r.name)).isSome with
  | true => exact hc
  | false =>
    have := (C323_exactly op l r ha h).1 (by unfold Compiles; rw [hc]; decide)
    rw [hb] at this; cases this

example : Accepted .add ⟨.i256, "i256"⟩ ⟨.i128, "i128"⟩ ∧ Compiles .add ⟨.i256, "i256"⟩ ⟨.i128, "i128"⟩ := by
  unfold Accepted Compiles; decide
example : Accepted .eq ⟨.pointer, "^P"⟩ ⟨.nil, "nil"⟩ ∧ Compiles .eq ⟨.pointer, "^P"⟩ ⟨.nil, "nil"⟩ := by
  unfold Accepted Compiles; decide
example : ¬ Accepted .add ⟨.string, "string"⟩ ⟨.string, "string"⟩ := by unfold Accepted; decide

/-! ### C324: what is accepted is what STANDARD.md 5.2 has -/

namespace Ob

/-- Both of one family of primitive types: integers, floats, bools, characters -/
def family : K → K → Bool
  | .float, .float | .bool, .bool | .char, .char => true
  | l, r => isInteger l && isInteger r

/-- Both of one shape of enums -/
def enums : K → K → Bool
  | .enumInt, .enumInt | .enumStr, .enumStr | .enumTag, .enumTag => true
  | _, _ => false

/-- Equality of strings, errors, of pointers to one type and of pointers and errors with nil -/
def equals (same : Bool) : K → K → Bool
  | .string, .string | .error, .error | .nil, .nil | .nil, .pointer | .pointer, .nil | .nil, .error | .error, .nil => true
  | .pointer, .pointer => same
  | _, _ => false

def isBool : K → Bool
  | .bool => true
  | _ => false
def isChar : K → Bool
  | .char => true
  | _ => false

/-- STANDARD.md 5.2.1, 5.2.2, 5.2.3, 5.2.7 and 3.2.4: arithmetic on two integers or two floats (`%` on integers), comparison within a
family of primitives, equality of one enum, of strings, of pointers to one type or with nil, of errors with nil or one another,
logic on bools, bit operators on integers and characters. -/
def defined (op : Bin) (l r : K) (same : Bool) : Bool :=
  match group op with
  | .arith =>
    match op with
    | .mod => isInteger l && isInteger r
    | _ => (isInteger l && isInteger r) || (isFloat l && isFloat r)
  | .order => family l r
  | .equal => family l r || (enums l r && same) || equals same l r
  | .logic => isBool l && isBool r
  | .bits => (isInteger l || isChar l) && (isInteger r || isChar r)

/-- An enum of strings beside a string, two functions -/
def oddPairs : K → K → Bool
  | .enumStr, .string | .string, .enumStr | .func, .func => true
  | _, _ => false

/-- Accepted without being defined -/
def extra (op : Bin) (l r : K) : Bool :=
  match group op with
  | .arith => isChar l || isChar r || isHandle l || isHandle r || (isFloat l != isFloat r)
  | .order => !family l r
  | .equal => isStruct l || isStruct r || (isBool l != isBool r) || oddPairs l r
  | .logic => !(isBool l && isBool r)
  | .bits => false

def tagged : K → Bool
  | .enumTag => true
  | _ => false

/-- Different wide integers that are not computed with or compared: all but those of the same sign with the wider one on the left -/
def apart : K → K → Bool
  | .i256, .i128 | .u256, .u128 | .i128, .i128 | .i256, .i256 | .u128, .u128 | .u256, .u256 => false
  | l, r => isWide l && isWide r

/-- Defined and refused: the equality of tagged enums, and wide integers -/
def refused (op : Bin) (l r : K) : Bool :=
  match group op with
  | .order | .arith => apart l r
  | .equal => tagged l || apart l r
  | _ => false

def definedP (o : Bin) (l r : K) (s : Bool) : Bool :=
  if rejected o l r s then !defined o l r s || refused o l r
  else ((!defined o l r s) == extra o l r) && (!defined o l r s || !refused o l r)

set_option maxRecDepth 100000 in
theorem defined_same : (allOps.all fun o => allKinds.all fun k => definedP o k k true) = true := by decide +kernel

set_option maxRecDepth 100000 in
theorem defined_other : (allOps.all fun o => allKinds.all fun l => allKinds.all fun r => definedP o l r false) = true := by
  decide +kernel

/-- The operands that the logical operators do not take -/
def noLogic : K → Bool
  | .string | .nil | .void => true
  | _ => false

def logicP (l r : K) (s : Bool) : Bool :=
  (rejected .and l r s == (noLogic l || noLogic r)) && (rejected .or l r s == (noLogic l || noLogic r))

set_option maxRecDepth 100000 in
theorem logic_table : (allKinds.all fun l => allKinds.all fun r => logicP l r true && logicP l r false) = true := by
  decide +kernel

end Ob

/-- C324: the operators accepted on two operands are those that the standard defines. -/
def C324_statement : Prop := ∀ op l r, Agree l r →
  (Accepted op l r ↔ defined op l.k r.k (l.name == r.name) = true)

/-- `1 && 2` and `true == 1` are accepted, the comparison of an `i128` with an `i256` is not. -/
theorem C324_witness :
    (Accepted .and ⟨.int, "int"⟩ ⟨.int, "int"⟩ ∧ defined .and .int .int true = false) ∧
    (Accepted .eq ⟨.bool, "bool"⟩ ⟨.int, "int"⟩ ∧ defined .eq .bool .int false = false) ∧
    (Accepted .add ⟨.func, "func()"⟩ ⟨.int, "int"⟩ ∧ defined .add .func .int false = false) ∧
    (Accepted .lt ⟨.bool, "bool"⟩ ⟨.float, "float"⟩ ∧ defined .lt .bool .float false = false) ∧
    (¬ Accepted .lt ⟨.i128, "i128"⟩ ⟨.i256, "i256"⟩ ∧ defined .lt .i128 .i256 false = true) := by
  unfold Accepted; decide

theorem C324_fails : ¬ C324_statement := fun h =>
  absurd ((h _ ⟨.int, "int"⟩ ⟨.int, "int"⟩ (fun _ => rfl)).1 C324_witness.1.1) (by decide)

/-- Of what is accepted, exactly this is not defined. -/
theorem C324_extra (op : Bin) (l r : Opd) (ha : Agree l r) (h : Accepted op l r) :
    defined op l.k r.k (l.name == r.name) = false ↔ extra op l.k r.k = true := by
  have t := all_pairs (p := definedP) defined_same defined_other op l.k r.k (l.name == r.name) (same_kind ha)
  unfold Accepted at h
  unfold definedP at t
  rw [h] at t
  have t' := beq_iff_eq.1 (Bool.and_eq_true_iff.1 t).1
  rw [← t']
  cases defined op l.k r.k (l.name == r.name) <;> simp

/-- Of what is defined, exactly this is refused. -/
theorem C324_refused (op : Bin) (l r : Opd) (ha : Agree l r) (h : defined op l.k r.k (l.name == r.name) = true) :
    ¬ Accepted op l r ↔ refused op l.k r.k = true := by
  have t := all_pairs (p := definedP) defined_same defined_other op l.k r.k (l.name == r.name) (same_kind ha)
  unfold Accepted
  unfold definedP at t
  cases hr : rejected op l.k r.k (l.name == r.name) with
  | true =>
    rw [hr, h] at t
    simpa using t
  | false =>
    rw [hr, h] at t
    have t' := (Bool.and_eq_true_iff.1 t).2
    cases hq : refused op l.k r.k with
    | false => simp
    | true => rw [hq] at t'; cases t'

/-- The logical operators are refused only on strings, nil and void. -/
theorem C324_logic (op : Bin) (l r : Opd) (ho : op = .and ∨ op = .or) :
    Accepted op l r ↔ noLogic l.k = false ∧ noLogic r.k = false := by
  have t := Bool.and_eq_true_iff.1 (List.all_eq_true.1 (List.all_eq_true.1 logic_table l.k (mem_kinds _)) r.k (mem_kinds _))
  have t' : logicP l.k r.k (l.name == r.name) = true := by
    cases (l.name == r.name)
    · exact t.2
    · exact t.1
  have t2 := Bool.and_eq_true_iff.1 t'
  unfold Accepted
  rcases ho with rfl | rfl
  · rw [beq_iff_eq.1 t2.1, Bool.or_eq_false_iff]
  · rw [beq_iff_eq.1 t2.2, Bool.or_eq_false_iff]

/-- Missing: the operands of `extra`, accepted without being defined, and those of `refused`, defined and not accepted. -/
theorem C324_partial (op : Bin) (l r : Opd) (ha : Agree l r) (h1 : extra op l.k r.k = false) (h2 : refused op l.k r.k = false) :
    Accepted op l r ↔ defined op l.k r.k (l.name == r.name) = true := by
  constructor
  · intro h
    cases hd : defined op l.k r.k (l.name == r.name) with
    | true => rfl
    | false => rw [(C324_extra op l r ha h).1 hd] at h1; cases h1
  · intro h
    unfold Accepted
    cases hr : rejected op l.k r.k (l.name == r.name) with
    | false => rfl
    | true =>
      have := (C324_refused op l r ha h).1 (by unfold Accepted; rw [hr]; decide)
      rw [this] at h2; cases h2

example : extra .add .int .i128 = false ∧ refused .add .int .i128 = false ∧
    Accepted .add ⟨.int, "int"⟩ ⟨.i128, "i128"⟩ := by unfold Accepted; decide
example : extra .band .char .byte = false ∧ refused .band .char .byte = false ∧ defined .band .char .byte false = true := by decide

/-! ### C325: the type of the result -/

namespace Ob

def isWord : K → Bool
  | .int | .uint | .byte | .char => true
  | _ => false

/-- The C type of the expression is not that of the type given to it. -/
def mistyped (op : Bin) (l r : K) (same : Bool) : Bool :=
  match group op with
  | .arith =>
    (isWide r && !isWide l) || (isWide l && isFloat r) ||
    match op with
    | .add => isHandle r && isWord l
    | .sub => twoHandles l r && same
    | _ => false
  | _ => false

/-- STANDARD.md 5.2: a comparison or a logical operator gives a bool, arithmetic with a float a float, the others the type of
the left operand. -/
def typeOf (op : Bin) (l r : K) : K :=
  match group op with
  | .equal | .order | .logic => .bool
  | _ => if isFloat l || isFloat r then .float else l

/-- The C expressions that hold values of a kind -/
def holds : K → C → Bool
  | .int, .whole | .uint, .whole | .byte, .whole | .bool, .whole | .char, .whole | .enumInt, .whole => true
  | .float, .real | .pointer, .ptr | .error, .ptr | .func, .ptr | .nil, .ptr => true
  | .i128, .big .i128 | .i256, .big .i256 | .u128, .big .u128 | .u256, .big .u256 => true
  | _, _ => false

/-- The expression is of the C type of the kind that the checker gives to it. -/
def Typed (op : Bin) (l r : Opd) : Prop :=
  ∃ c, emit op l.k r.k (l.name == r.name) = some c ∧ holds (result op l.k r.k) c = true

def typedP (o : Bin) (l r : K) (s : Bool) : Bool :=
  rejected o l r s ||
    ((result o l r == typeOf o l r) && (emit o l r s).all fun c => holds (result o l r) c == !mistyped o l r s)

set_option maxRecDepth 100000 in
theorem typed_same : (allOps.all fun o => allKinds.all fun k => typedP o k k true) = true := by decide +kernel

set_option maxRecDepth 100000 in
theorem typed_other : (allOps.all fun o => allKinds.all fun l => allKinds.all fun r => typedP o l r false) = true := by
  decide +kernel

end Ob

/-- C325: what compiles has the C type of the type that the checker gives to it. -/
def C325_statement : Prop := ∀ op l r, Agree l r → Accepted op l r → Compiles op l r → Typed op l r

/-- `n + w` of an `int` and an `i128` has the type `int` and is emitted as an `i128`; `w + f` with a float has the type `float`, and
is an `i128` too; the difference of two errors is an `Error`, and a number in C. -/
theorem C325_witness :
    (Accepted .add ⟨.int, "int"⟩ ⟨.i128, "i128"⟩ ∧ result .add .int .i128 = .int ∧ emit .add .int .i128 false = some (.big .i128)) ∧
    (Accepted .add ⟨.i128, "i128"⟩ ⟨.float, "float"⟩ ∧ result .add .i128 .float = .float ∧
      emit .add .i128 .float false = some (.big .i128)) ∧
    (Accepted .sub ⟨.error, "Error"⟩ ⟨.error, "Error"⟩ ∧ result .sub .error .error = .error ∧
      emit .sub .error .error true = some .whole) := by
  unfold Accepted; decide

/-- Exactly these are mistyped. -/
theorem C325_exactly (op : Bin) (l r : Opd) (ha : Agree l r) (h : Accepted op l r) (hc : Compiles op l r) :
    Typed op l r ↔ mistyped op l.k r.k (l.name == r.name) = false := by
  have t := all_pairs (p := typedP) typed_same typed_other op l.k r.k (l.name == r.name) (same_kind ha)
  unfold Accepted at h
  unfold Compiles at hc
  obtain ⟨c, e⟩ := Option.isSome_iff_exists.1 hc
  unfold typedP at t
  rw [h, Bool.false_or, e] at t
  have t' : holds (result op l.k r.k) c = !mistyped op l.k r.k (l.name == r.name) :=
    beq_iff_eq.1 (Bool.and_eq_true_iff.1 t).2
  unfold Typed
  constructor
  · rintro ⟨d, hd, hm⟩
    rw [e] at hd
    obtain rfl := Option.some.inj hd
    rw [hm] at t'
    cases hq : mistyped op l.k r.k (l.name == r.name) with
    | false => rfl
    | true => rw [hq] at t'; cases t'
  · intro hq
    rw [hq] at t'
    exact ⟨c, e, t'⟩

theorem C325_fails : ¬ C325_statement := fun h =>
  absurd ((C325_exactly .add ⟨.int, "int"⟩ ⟨.i128, "i128"⟩ (fun q => absurd q (by decide)) C325_witness.1.1
    (by unfold Compiles; decide)).1 (h _ _ _ (fun q => absurd q (by decide)) C325_witness.1.1 (by unfold Compiles; decide))) (by decide)

/-- The type given to an accepted expression is that of the standard. -/
theorem C325_result (op : Bin) (l r : Opd) (ha : Agree l r) (h : Accepted op l r) : result op l.k r.k = typeOf op l.k r.k := by
  have t := all_pairs (p := typedP) typed_same typed_other op l.k r.k (l.name == r.name) (same_kind ha)
  unfold Accepted at h
  unfold typedP at t
  rw [h, Bool.false_or] at t
  exact beq_iff_eq.1 (Bool.and_eq_true_iff.1 t).1

/-- Missing: arithmetic of a wide integer on the right with another kind on the left, or with a float, and of errors and
functions. Everything else has the C type of its type; all comparisons have. -/
theorem C325_partial (op : Bin) (l r : Opd) (ha : Agree l r) (h : Accepted op l r) (hc : Compiles op l r)
    (hr : isHandle r.k = false) (hw : isWide r.k = true → isWide l.k = true) (hf : isWide l.k = true → isFloat r.k = false) :
    Typed op l r := by
  refine (C325_exactly op l r ha h hc).2 ?_
  have h1 : (isWide r.k && !isWide l.k) = false := by
    cases hq : isWide r.k with
    | false => rfl
    | true => rw [hw hq]; rfl
  have h2 : (isWide l.k && isFloat r.k) = false := by
    cases hq : isWide l.k with
    | false => rfl
    | true => rw [hf hq]; rfl
  have h3 : twoHandles l.k r.k = false := by
    revert hr; generalize l.k = a; generalize r.k = b; cases a <;> cases b <;> decide
  unfold mistyped
  rw [h1, h2, h3, hr]
  cases op <;> rfl

example : Typed .mul ⟨.i128, "i128"⟩ ⟨.int, "int"⟩ := ⟨.big .i128, by decide, rfl⟩
example : Typed .lt ⟨.u256, "u256"⟩ ⟨.float, "float"⟩ := ⟨.whole, by decide, rfl⟩

/-! ### C326: prefix operators -/

namespace Ob

/-- The type of the result (6896, 6904, 6910) as the standard has it -/
def unType (op : Un) (k : K) : K := match op with
  | .not => .bool
  | _ => k

end Ob

/-- C326: a prefix operator that is accepted compiles, and has the C type of its result. -/
def C326_statement : Prop := ∀ op k, rejectedUn op k = false → ∃ c, emitUn op k = some c ∧ holds (unType op k) c = true

/-- `bit_not` of a wide integer is accepted; C has no `~` for a struct. -/
theorem C326_witness : rejectedUn .bnot .i128 = false ∧ emitUn .bnot .i128 = none := by decide

theorem C326_fails : ¬ C326_statement := fun h => by
  obtain ⟨c, hc, _⟩ := h .bnot .i128 C326_witness.1
  rw [C326_witness.2] at hc; cases hc

/-- Missing: `bit_not` of wide integers. All else that is accepted compiles with the right type. -/
theorem C326_partial (op : Un) (k : K) (h : rejectedUn op k = false) :
    (∃ c, emitUn op k = some c ∧ holds (unType op k) c = true) ↔ ¬ (op = .bnot ∧ isWide k = true) := by
  constructor
  · rintro ⟨c, hc, _⟩ ⟨rfl, hk⟩
    revert hc hk
    cases k <;> simp [emitUn, isWide, cType]
  · intro hn
    revert h hn
    cases op <;> cases k <;> first
      | (intro h _; exact absurd h (by decide))
      | (intro _ hn; exact absurd (by decide) hn)
      | (intro _ _; exact ⟨_, rfl, rfl⟩)

/-- What is accepted: `!` on bools, `-` on signed numbers and on characters, `bit_not` on integers and characters. -/
theorem C326_accepted (op : Un) (k : K) : rejectedUn op k = false ↔
    (op = .not ∧ k = .bool) ∨ (op = .neg ∧ k ∈ [K.int, .i128, .i256, .float, .char]) ∨ (op = .bnot ∧ (isInteger k = true ∨ k = .char)) := by
  cases op <;> cases k <;> decide

example : rejectedUn .neg .i256 = false ∧ emitUn .neg .i256 = some (.big .i256) := by decide
example : rejectedUn .neg .byte = true ∧ rejectedUn .not .int = true := by decide

namespace Ob

/-- Operands that `==` and `!=` are for; `same` says that their types are the same. -/
def comparable : K → K → Bool → Bool
  | .i128, .i256, _ | .i128, .u128, _ | .i128, .u256, _ | .i256, .u128, _ | .i256, .u256, _ => false
  | .u128, .i128, _ | .u128, .i256, _ | .u128, .u256, _ | .u256, .i128, _ | .u256, .i256, _ => false
  | .nil, .nil, _ | .nil, .pointer, _ | .nil, .error, _ | .pointer, .nil, _ | .error, .nil, _ => true
  | .string, .string, _ | .string, .enumStr, _ | .enumStr, .string, _ => true
  | .float, .float, _ | .bool, .bool, _ | .char, .char, _ | .error, .error, _ | .func, .func, _ => true
  | .pointer, .pointer, s | .enumInt, .enumInt, s | .enumStr, .enumStr, s => s
  | l, .bool, _ | l, .struct, _ => isInteger l
  | .bool, r, _ | .struct, r, _ => isInteger r
  | l, r, _ => isInteger l && isInteger r

def eqP (op : Bin) (l r : K) (s : Bool) : Bool :=
  match op with
  | .eq | .ne => rejected op l r s == !comparable l r s
  | _ => true

theorem eqP1 : (allOps.all fun o => allKinds.all fun k => eqP o k k true) = true := by decide +kernel
theorem eqP2 : (allOps.all fun o => allKinds.all fun l => allKinds.all fun r => eqP o l r false) = true := by decide +kernel

end Ob

/-- `==` and `!=` are accepted on exactly these operands: integers with each other (wide ones of different types apart, of which `i256` may stand
before `i128` and `u256` before `u128`), with bools and with structs; strings with strings and with enums of strings; nil with nil, pointers and
errors; and operands of one type otherwise, arrays, maps, structs and tagged enums excluded. -/
theorem C323_equality (op : Bin) (hop : op = .eq ∨ op = .ne) (l r : Opd) (h : Agree l r) :
    Accepted op l r ↔ Ob.comparable l.k r.k (l.name == r.name) = true := by
  have key := all_pairs eqP1 eqP2 op l.k r.k (l.name == r.name) (fun hs => h (beq_iff_eq.1 hs))
  have k2 : rejected op l.k r.k (l.name == r.name) = !Ob.comparable l.k r.k (l.name == r.name) := by
    rcases hop with rfl | rfl <;> exact beq_iff_eq.1 key
  unfold Accepted
  rw [k2]
  cases Ob.comparable l.k r.k (l.name == r.name) <;> simp

namespace Ob

/-- Operands that `<`, `>`, `<=` and `>=` take -/
def orderable : K → K → Bool
  | .i128, .i256 | .i128, .u128 | .i128, .u256 | .i256, .u128 | .i256, .u256 => false
  | .u128, .i128 | .u128, .i256 | .u128, .u256 | .u256, .i128 | .u256, .i256 => false
  | .void, _ | .string, _ | .nil, _ | .pointer, _ => false
  | _, .void | _, .string | _, .nil | _, .pointer => false
  | .array, .array | .map, .map | .struct, .struct => false
  | .enumInt, r | .enumStr, r | .enumTag, r => r == .int || r == .i128 || r == .i256
  | l, .enumInt | l, .enumStr | l, .enumTag => l == .int || l == .i128 || l == .i256
  | _, _ => true

def ordP (op : Bin) (l r : K) (s : Bool) : Bool :=
  match op with
  | .lt | .gt | .le | .ge => rejected op l r s == !orderable l r
  | _ => true

theorem ordP1 : (allOps.all fun o => allKinds.all fun k => ordP o k k true) = true := by decide +kernel
theorem ordP2 : (allOps.all fun o => allKinds.all fun l => allKinds.all fun r => ordP o l r false) = true := by decide +kernel

end Ob

/-- The comparisons of order are accepted on exactly these operands: all but void, strings, nil and pointers; enums only with signed integers; wide
integers as in `C323_equality`; two arrays, maps or structs are refused, while one of them with something else is not. -/
theorem C324_order (op : Bin) (hop : op = .lt ∨ op = .gt ∨ op = .le ∨ op = .ge) (l r : Opd) (h : Agree l r) :
    Accepted op l r ↔ Ob.orderable l.k r.k = true := by
  have key := all_pairs ordP1 ordP2 op l.k r.k (l.name == r.name) (fun hs => h (beq_iff_eq.1 hs))
  have k2 : rejected op l.k r.k (l.name == r.name) = !Ob.orderable l.k r.k := by
    rcases hop with rfl | rfl | rfl | rfl <;> exact beq_iff_eq.1 key
  unfold Accepted
  rw [k2]
  cases Ob.orderable l.k r.k <;> simp

example : Accepted .lt ⟨.array, "[int]"⟩ ⟨.int, "int"⟩ ∧ ¬ Accepted .lt ⟨.enumInt, "E"⟩ ⟨.uint, "uint"⟩ := by
  unfold Accepted; decide

namespace Ob

/-- Operands that arithmetic takes, `%` apart from floats -/
def computable : K → K → Bool
  | .i128, .i256 | .i128, .u128 | .i128, .u256 | .i256, .u128 | .i256, .u256 => false
  | .u128, .i128 | .u128, .i256 | .u128, .u256 | .u256, .i128 | .u256, .i256 => false
  | l, r => one l && one r
where
  one : K → Bool
    | .int | .uint | .byte | .i128 | .i256 | .u128 | .u256 | .float | .char | .error | .func => true
    | _ => false

/-- What the operators other than comparisons and `&&`, `||` take -/
def operable (op : Bin) (l r : K) : Bool :=
  match op with
  | .add | .sub | .mul | .div => computable l r
  | .mod => computable l r && l != .float && r != .float
  | _ => (isInteger l || l == .char) && (isInteger r || r == .char)

def opP (op : Bin) (l r : K) (s : Bool) : Bool :=
  match op with
  | .lt | .gt | .le | .ge | .eq | .ne | .and | .or => true
  | _ => rejected op l r s == !operable op l r

theorem opP1 : (allOps.all fun o => allKinds.all fun k => opP o k k true) = true := by decide +kernel
theorem opP2 : (allOps.all fun o => allKinds.all fun l => allKinds.all fun r => opP o l r false) = true := by decide +kernel

end Ob

/-- Arithmetic is accepted on exactly these operands: numbers, characters, errors and functions (wide integers as in `C323_equality`, floats not for
`%`); the operators on bits on integers and characters. -/
theorem C324_arithmetic (op : Bin) (hop : op ∈ [Bin.add, .sub, .mul, .div, .mod, .band, .bor, .bxor, .shl, .shr]) (l r : Opd) (h : Agree l r) :
    Accepted op l r ↔ Ob.operable op l.k r.k = true := by
  have key := all_pairs opP1 opP2 op l.k r.k (l.name == r.name) (fun hs => h (beq_iff_eq.1 hs))
  have k2 : rejected op l.k r.k (l.name == r.name) = !Ob.operable op l.k r.k := by
    cases op <;> first
      | exact beq_iff_eq.1 key
      | exact absurd hop (by decide)
  unfold Accepted
  rw [k2]
  cases Ob.operable op l.k r.k <;> simp

example : Accepted .add ⟨.error, "Error"⟩ ⟨.float, "float"⟩ ∧ ¬ Accepted .shl ⟨.bool, "bool"⟩ ⟨.int, "int"⟩ := by
  unfold Accepted; decide

end Verif.Props

import Verif.Model.Tagged
import Verif.Props.IntOps
/-
C331–C334: values of tagged enums.
-/
namespace Verif.Props
open Verif.Operators Verif.Tagged Verif.IntOps

namespace Ta

/-- The variant is declared, with so many payloads. -/
def Declared (vs : List (String × Nat)) (v : String) (n : Nat) : Prop :=
  ∃ a b, vs = a ++ (v, n) :: b ∧ ∀ q ∈ a, q.1 ≠ v

theorem find_some {vs : List (String × Nat)} {v : String} {n : Nat} : Tagged.find vs v = some n ↔ Declared vs v n := by
  induction vs with
  | nil =>
    constructor
    · intro h; exact nomatch h
    · rintro ⟨a, b, h, _⟩
      cases a <;> exact nomatch h
  | cons q qs ih =>
    unfold Tagged.find at *
    rw [List.find?_cons]
    cases hq : (q.1 == v) with
    | true =>
      have hv := beq_iff_eq.1 hq
      dsimp only
      constructor
      · intro h
        have : q.2 = n := Option.some.inj h
        exact ⟨[], qs, by rw [← hv, ← this]; rfl, fun _ h => nomatch h⟩
      · rintro ⟨a, b, h, ha⟩
        cases a with
        | nil => rw [(List.cons.inj h).1]; rfl
        | cons x xs => exact absurd hv (by rw [(List.cons.inj h).1]; exact ha x (List.mem_cons_self ..))
    | false =>
      have hv : q.1 ≠ v := fun e => by rw [e, beq_self_eq_true] at hq; exact nomatch hq
      dsimp only
      rw [ih]
      constructor
      · rintro ⟨a, b, h, ha⟩
        refine ⟨q :: a, b, by rw [h]; rfl, ?_⟩
        intro x hx
        rcases List.mem_cons.1 hx with e | e
        · rw [e]; exact hv
        · exact ha x e
      · rintro ⟨a, b, h, ha⟩
        cases a with
        | nil => exact absurd (by rw [(List.cons.inj h).1]) hv
        | cons x xs => exact ⟨xs, b, (List.cons.inj h).2, fun y hy => ha y (List.mem_cons_of_mem _ hy)⟩

end Ta

open Ta

/-! ### C331: a value of a tagged enum has its payloads -/

/-- C331: all payloads of an accepted value are arguments that were given. -/
def C331_statement : Prop := ∀ (α : Type) (vs : List (String × Nat)) (v : String) (f : Form α),
  formErrors vs true v f = [] → ∀ x ∈ inits vs v f, x ≠ none

/-- `Shape.Circle` and `.Circle` without arguments are accepted, and the radius is 0. -/
theorem C331_witness (i : Bool) : formErrors [("Circle", 1), ("Point", 0)] true "Circle" (.plain i : Form Nat) = [] ∧
    inits [("Circle", 1), ("Point", 0)] "Circle" (.plain i : Form Nat) = [none] := by
  cases i <;> decide +kernel

theorem C331_fails : ¬ C331_statement := fun h =>
  h Nat [("Circle", 1), ("Point", 0)] "Circle" (.plain false) (C331_witness false).1 none (by rw [(C331_witness false).2]; exact List.mem_cons_self ..) rfl

/-- A call has no error exactly if the enum is tagged and the variant is declared with as many payloads as there are arguments, and then
the payloads are the arguments. Without a call the variant need only be declared, and all payloads are zeros; so the claim holds for
calls and for variants without payloads. -/
theorem C331_partial {α : Type} (vs : List (String × Nat)) (tagged : Bool) (v : String) (i : Bool) :
    (∀ args : List α, formErrors vs tagged v (.call i args) = [] ↔ tagged = true ∧ Declared vs v args.length) ∧
    (∀ args : List α, formErrors vs tagged v (.call i args) = [] → inits vs v (.call i args) = args.map some) ∧
    (formErrors vs tagged v (.plain i : Form α) = [] ↔ ∃ n, Declared vs v n) ∧
    (∀ n, Declared vs v n → inits vs v (.plain i : Form α) = List.replicate n none) := by
  have first : ∀ args : List α, formErrors vs tagged v (.call i args) = [] ↔ tagged = true ∧ Declared vs v args.length := by
    intro args
    rw [← find_some]
    unfold formErrors
    dsimp only
    cases hf : Tagged.find vs v with
    | none => simp
    | some n =>
      dsimp only
      cases tagged with
      | false => simp
      | true =>
        by_cases hn : n = args.length
        · subst hn
          cases args with
          | nil => simp
          | cons a as => simp
        · have hz : (n == 0 && decide (0 < args.length)) = true ∨ (n != args.length) = true := Or.inr (by simp [hn])
          constructor
          · intro h
            exfalso
            revert h
            split
            · rename_i q; simp at q
            · split
              · simp
              · split
                · simp
                · rename_i q; simp [hn] at q
          · rintro ⟨_, h⟩
            exact absurd (Option.some.inj h) hn
  refine ⟨first, ?_, ?_, ?_⟩
  · intro args h
    have hf := find_some.2 ((first args).1 h).2
    unfold inits
    dsimp only
    rw [hf]
    dsimp only [Option.getD_some]
    cases args with
    | nil => rfl
    | cons a as => simp
  · unfold formErrors
    dsimp only
    cases hf : Tagged.find vs v with
    | none =>
      constructor
      · intro h; simp at h
      · rintro ⟨n, h⟩
        rw [find_some.2 h] at hf; exact nomatch hf
    | some n => exact ⟨fun _ => ⟨n, find_some.1 hf⟩, fun _ => by simp⟩
  · intro n h
    unfold inits
    dsimp only
    rw [find_some.2 h]
    rfl

example : formErrors [("Circle", 1), ("Point", 0)] true "Point" (.call false [3]) = ["E3114"] ∧
    formErrors [("Circle", 1), ("Point", 0)] true "Circle" (.call false [3, 4]) = ["E3113"] ∧
    formErrors [("Circle", 1), ("Point", 0)] true "Square" (.call true [3, 4]) = ["E3047"] ∧
    formErrors [("Red", 0)] false "Red" (.call true ([] : List Nat)) = ["E3115"] ∧
    inits [("Circle", 1), ("Rect", 2)] "Rect" (.call false [3, 4]) = [some 3, some 4] := by decide +kernel

/-! ### C332: integer payloads -/

namespace Ta

/-- The value is one of the type. -/
def Fits (a : Arg) : Prop :=
  match a.1 with
  | .narrow t => InTy t a.2
  | .wide n true => -2 ^ (64 * n - 1) ≤ a.2 ∧ a.2 < 2 ^ (64 * n - 1)
  | .wide n false => 0 ≤ a.2 ∧ a.2 < 2 ^ (64 * n)

/-- Argument and payload are both of up to 64 bits, or of the same wide type. -/
def alike : Pay → Pay → Bool
  | .narrow _, .narrow _ => true
  | .wide n s, .wide m s' => n == m && s == s'
  | _, _ => false

/-- What a payload is after C has converted the argument -/
def arrives : Pay → Int → Int
  | .narrow t, v => conv (cTy t) v
  | .wide _ _, v => v

end Ta

/-- C332: integer payloads of an accepted constructor are the arguments. -/
def C332_statement : Prop := ∀ (ps : List Pay) (as : List Arg), (∀ a ∈ as, Fits a) → accepted ps as = true →
  fill ps as = some (as.map (·.2))

/-- `V(i128, int)` called as `V(a, b)` with two ints 5 and 7: both go into the words of the `i128`, and the `int` is 0. An `i128` made from
an int -1 is 2⁶⁴ - 1, an `i8` from 300 is 44, and an `int` from an `i128` is not C. -/
theorem C332_witness :
    accepted [.wide 2 true, .narrow .int] [(.narrow .int, 5), (.narrow .int, 7)] = true ∧
    fill [.wide 2 true, .narrow .int] [(.narrow .int, 5), (.narrow .int, 7)] = some [5 + 7 * 2 ^ 64, 0] ∧
    accepted [.wide 2 true] [(.narrow .int, -1)] = true ∧ fill [.wide 2 true] [(.narrow .int, -1)] = some [2 ^ 64 - 1] ∧
    accepted [.narrow .i8] [(.narrow .int, 300)] = true ∧ fill [.narrow .i8] [(.narrow .int, 300)] = some [44] ∧
    accepted [.narrow .int] [(.wide 2 true, 1)] = true ∧ fill [.narrow .int] [(.wide 2 true, 1)] = none := by
  decide +kernel

theorem C332_fails : ¬ C332_statement := fun h => by
  have := h [.wide 2 true, .narrow .int] [(.narrow .int, 5), (.narrow .int, 7)] (by
    intro a ha
    rcases List.mem_cons.1 ha with e | e
    · rw [e]; simp only [Fits, InTy, loTy, hiTy]; omega
    · rw [List.mem_singleton.1 e]; simp only [Fits, InTy, loTy, hiTy]; omega) C332_witness.1
  rw [C332_witness.2.1] at this
  revert this
  decide

/-- If each argument is alike its payload (both up to 64 bits, or of the same wide type), each payload is its argument converted to its
type, which is the argument if that is in range. -/
theorem C332_partial (ps : List Pay) (as : List Arg) (hl : ps.length = as.length)
    (h : ∀ q ∈ ps.zip as, alike q.1 q.2.1 = true) :
    fill ps as = some ((ps.zip as).map fun q => arrives q.1 q.2.2) := by
  induction ps generalizing as with
  | nil => rfl
  | cons p ps ih =>
    cases as with
    | nil => exact absurd hl (by simp)
    | cons a as =>
      have h1 := h (p, a) (by rw [List.zip_cons_cons]; exact List.mem_cons_self ..)
      have h2 := ih as (by simpa using hl) (fun q hq => h q (by rw [List.zip_cons_cons]; exact List.mem_cons_of_mem _ hq))
      obtain ⟨t, v⟩ := a
      cases p with
      | narrow t0 =>
        cases t with
        | wide n s => exact nomatch h1
        | narrow t1 =>
          show (fill ps as).map _ = _
          rw [h2]; rfl
      | wide n s =>
        cases t with
        | narrow t1 => exact nomatch h1
        | wide m s' =>
          have hb := Bool.and_eq_true_iff.1 h1
          show (if m = n ∧ s' = s then (fill ps as).map (v :: ·) else none) = _
          rw [if_pos ⟨(beq_iff_eq.1 hb.1).symm, (beq_iff_eq.1 hb.2).symm⟩, h2]; rfl

/-- So arguments of the types of the payloads, whatever their values, all arrive. -/
theorem C332_same_partial (as : List Arg) (hf : ∀ a ∈ as, Fits a) :
    accepted (as.map (·.1)) as = true ∧ fill (as.map (·.1)) as = some (as.map (·.2)) := by
  constructor
  · unfold accepted
    rw [List.length_map, beq_self_eq_true, Bool.true_and, List.all_eq_true]
    intro q hq
    have : q.1 = q.2.1 := by
      induction as with
      | nil => exact nomatch hq
      | cons a as ih =>
        rw [List.map_cons, List.zip_cons_cons] at hq
        rcases List.mem_cons.1 hq with e | e
        · rw [e]
        · exact ih (fun a ha => hf a (List.mem_cons_of_mem _ ha)) e
    rw [this, beq_self_eq_true]
  · induction as with
    | nil => rfl
    | cons a as ih =>
      have h2 := ih (fun a ha => hf a (List.mem_cons_of_mem _ ha))
      have h1 := hf a (List.mem_cons_self ..)
      obtain ⟨t, v⟩ := a
      cases t with
      | narrow t =>
        show (fill (as.map (·.1)) as).map _ = _
        rw [h2]
        show some (conv (cTy t) v :: _) = _
        rw [conv_cTy h1]; rfl
      | wide n s =>
        show (if n = n ∧ s = s then (fill (as.map (·.1)) as).map (v :: ·) else none) = _
        rw [if_pos ⟨rfl, rfl⟩, h2]; rfl

/-- The other cases, for one payload: a narrow argument of a wide payload arrives modulo 2⁶⁴, so exactly if it is not negative, and a wide
argument of another payload is no C. -/
theorem C332_other (t : IntTy) (v : Int) (n : Nat) (s : Bool) (hn : 2 ≤ n) :
    fill [.wide n s] [(.narrow t, v)] = some [v % 2 ^ 64] ∧ fill [.narrow t] [(.wide n s, v)] = none ∧
    ∀ m s', (m ≠ n ∨ s' ≠ s) → fill [.wide n s] [(.wide m s', v)] = none := by
  refine ⟨?_, rfl, ?_⟩
  · obtain ⟨k, rfl⟩ : ∃ k, n = k + 1 := ⟨n - 1, by omega⟩
    show (scalars (((.narrow t, v) :: ([] : List Arg)).take (k + 1))).bind _ = _
    have ht : ((.narrow t, v) :: ([] : List Arg)).take (k + 1) = [(.narrow t, v)] := by rw [List.take_succ_cons, List.take_nil]
    have hd : ((.narrow t, v) :: ([] : List Arg)).drop (k + 1) = [] := by rw [List.drop_succ_cons, List.drop_nil]
    rw [ht, hd]
    show some [wordsVal (k + 1) s [v]] = _
    have hz : wordsVal (k + 1) s [v] = v % 2 ^ 64 := by
      unfold wordsVal
      simp only [List.foldr_cons, List.foldr_nil, Int.mul_zero, Int.add_zero, toU64]
      cases s with
      | false => rfl
      | true =>
        have h0 : 0 ≤ v % 2 ^ 64 := Int.emod_nonneg _ (by decide)
        have h1 : v % 2 ^ 64 < 2 ^ 64 := Int.emod_lt_of_pos _ (by decide)
        have hp : (2 : Nat) ^ 128 ≤ 2 ^ (64 * (k + 1)) := Nat.pow_le_pow_right (by decide) (by omega)
        rw [if_pos rfl]
        apply Int.bmod_eq_of_le
        · have : (0 : Int) ≤ ((2 ^ (64 * (k + 1)) : Nat) : Int) / 2 := by omega
          omega
        · omega
    rw [hz]
  · intro m s' h
    show (if m = n ∧ s' = s then _ else none) = none
    rw [if_neg]
    rintro ⟨a, b⟩
    rcases h with h | h
    · exact h a
    · exact h b

example : fill [.narrow .u8, .wide 2 false, .narrow .int] [(.narrow .u8, 200), (.wide 2 false, 2 ^ 100), (.narrow .int, -3)] = some [200, 2 ^ 100, -3] := by
  decide +kernel

/-! ### C333: payloads are of the declared types -/

namespace Ta

def kinds : List K :=
  [.int, .uint, .byte, .i128, .i256, .u128, .u256, .float, .bool, .char, .string, .array, .map, .struct,
   .enumInt, .enumStr, .enumTag, .pointer, .error, .func, .nil, .void]

theorem mem_kinds (k : K) : k ∈ kinds := by cases k <;> decide

/-- The kinds of payloads: types of one token that C has defined before enums -/
def payload : K → Bool
  | .int | .uint | .byte | .i128 | .i256 | .u128 | .u256 | .float | .bool | .char | .string | .enumInt | .enumStr | .enumTag
  | .error | .func => true
  | _ => false

def small : K → Bool
  | .int | .uint | .byte => true
  | _ => false

def big : K → Bool
  | .i128 | .u128 | .i256 | .u256 => true
  | _ => false

def enumK : K → Bool
  | .enumInt | .enumStr | .enumTag => true
  | _ => false

/-- The argument is of the type of the payload, or both are integers. -/
def typed (same : Bool) (a p : K) : Bool :=
  ((small a || big a) && (small p || big p)) || (a == p && (!enumK a || same))

/-- The whole payload is set. -/
def works (a p : K) (same : Bool) : Bool := initOf a p same == some .whole

def checkP (same : Bool) (a p : K) : Bool := !payload p ||
  -- accepted: integers, the same kind, and any enum for any other
  ((argOk a p == (typed same a p || (enumK a && enumK p))) &&
  -- and among these what works: numbers of up to 64 bits, the same type, and enums of numbers or of strings for such
   (!argOk a p || (works a p same == ((small a && small p) || (a == p && (a != .enumTag || same))))))

set_option maxRecDepth 100000 in
theorem table : (kinds.all fun a => kinds.all fun p => checkP false a p) = true := by decide +kernel

set_option maxRecDepth 100000 in
theorem tableSame : (kinds.all fun a => checkP true a a) = true := by decide +kernel

end Ta

/-- C333: an argument is accepted only if it is of the type of the payload, or both are integers, and then the payload is set. -/
def C333_statement : Prop := ∀ (a p : K) (same : Bool), payload p = true → (same = true → a = p) → argOk a p = true →
  typed same a p = true ∧ initOf a p same = some .whole

/-- A variant of another enum is accepted as payload, and sets it to its number; for a payload that is a tagged enum it sets the tag only;
one of strings is not C. -/
theorem C333_witness :
    argOk .enumInt .enumInt = true ∧ initOf .enumInt .enumInt false = some .whole ∧ typed false .enumInt .enumInt = false ∧
    argOk .enumInt .enumTag = true ∧ initOf .enumInt .enumTag false = some .first ∧
    argOk .enumStr .enumInt = true ∧ initOf .enumStr .enumInt false = none ∧
    argOk .int .i128 = true ∧ initOf .int .i128 false = some .first ∧ argOk .i128 .int = true ∧ initOf .i128 .int false = none := by
  decide +kernel

theorem C333_fails : ¬ C333_statement := fun h => by
  have := (h .enumInt .enumInt false rfl (fun q => nomatch q) C333_witness.1).1
  rw [C333_witness.2.2.1] at this
  exact nomatch this

/-- Exactly these are accepted: what is of the type of the payload, integers for integers, and any enum for any enum. Of them the payload is
set as a whole for integers of up to 64 bits both, and for equal kinds, but not for two different tagged enums. -/
theorem C333_partial (a p : K) (same : Bool) (hp : payload p = true) (hs : same = true → a = p) :
    (argOk a p = true ↔ typed same a p = true ∨ (enumK a = true ∧ enumK p = true)) ∧
    (argOk a p = true → (initOf a p same = some .whole ↔ (small a = true ∧ small p = true) ∨ (a = p ∧ (a ≠ .enumTag ∨ same = true)))) := by
  have key : checkP same a p = true := by
    cases same with
    | false => exact List.all_eq_true.1 (List.all_eq_true.1 table a (mem_kinds a)) p (mem_kinds p)
    | true => rw [← hs rfl]; exact List.all_eq_true.1 tableSame a (mem_kinds a)
  unfold checkP at key
  rw [hp, Bool.not_true, Bool.false_or, Bool.and_eq_true_iff] at key
  obtain ⟨k1, k2⟩ := key
  constructor
  · rw [beq_iff_eq.1 k1, Bool.or_eq_true_iff, Bool.and_eq_true_iff]
  · intro ha
    rw [ha, Bool.not_true, Bool.false_or] at k2
    have k3 := beq_iff_eq.1 k2
    have : initOf a p same = some .whole ↔ works a p same = true := by unfold works; rw [beq_iff_eq]
    rw [this, k3, Bool.or_eq_true_iff, Bool.and_eq_true_iff, Bool.and_eq_true_iff, Bool.or_eq_true_iff, beq_iff_eq, bne_iff_ne]

/-- An int is not accepted for a float, nor `nil` for an error. -/
theorem C333_float : argOk .int .float = false ∧ argOk .nil .error = false ∧ argOk .float .float = true := by decide +kernel

example : payload .float = true ∧ argOk .byte .int = true ∧ initOf .byte .int false = some .whole := by decide +kernel

/-! ### C334: selectors as payloads -/

/-- C334: `.v` as argument for a payload that is an enum means the variant `v` of it. -/
def C334_statement : Prop := ∀ (place : Option Enum) (pay : Enum) (v : String), v ∈ pay.variants → argSelector place pay v = some pay

namespace Ta

def color : Enum := ⟨"Color", ["Red", "Green"], false⟩
def shape : Enum := ⟨"Shape", ["Dot", "Green"], true⟩

end Ta

/-- `mut s Shape = .Dot(.Red)` is rejected, and `.Dot(.Green)` is accepted with `Green` of `Shape`, which is not C. -/
theorem C334_witness : (argSelector (some shape) color "Red").isNone = true ∧
    (argSelector (some shape) color "Green").map (·.name) = some "Shape" ∧ selectorC shape color = false := by decide +kernel

theorem C334_fails : ¬ C334_statement := fun h => by
  have h1 := C334_witness.1
  rw [h (some shape) color "Red" (by decide)] at h1
  exact nomatch h1

/-- In a place of the type of the constructor, a tagged enum, `.v` is taken for a variant of that enum, and is rejected if it has none;
it is never C for a payload that is another enum. Without a type of the place it is rejected. So such an argument only works where
the place is of the enum of the payload, which is not where values of the enum of the constructor go. -/
theorem C334_partial (place pay : Enum) (v : String) :
    (argSelector (some place) pay v = if v ∈ place.variants then some place else none) ∧
    argSelector none pay v = none ∧
    (place.tagged = true → place.name ≠ pay.name → selectorC place pay = false) ∧
    (place = pay → v ∈ pay.variants → argSelector (some place) pay v = some pay ∧ selectorC place pay = true) := by
  have h1 : argSelector (some place) pay v = if v ∈ place.variants then some place else none := by
    unfold argSelector selector
    dsimp only
    by_cases h : v ∈ place.variants
    · rw [if_pos h, if_pos (List.contains_iff_mem.2 h)]
    · rw [if_neg h, if_neg (fun q => h (List.contains_iff_mem.1 q))]
  refine ⟨h1, rfl, ?_, ?_⟩
  · intro ht hn
    unfold selectorC
    rw [ht, beq_eq_false_iff_ne.2 hn]
    cases pay.tagged <;> decide +kernel
  · rintro rfl hv
    rw [h1, if_pos hv]
    refine ⟨rfl, ?_⟩
    unfold selectorC
    rw [beq_self_eq_true]
    cases place.tagged <;> decide +kernel

example : (argSelector (some shape) shape "Dot").isSome = true := by decide +kernel

end Verif.Props

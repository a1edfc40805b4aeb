import Verif.Model.MapCalls
import Verif.Props.IntOps
/-
C335–C337: the functions of `maps` on maps of integers.
-/
namespace Verif.Props
open Verif Verif.IntOps Verif.MapCalls

namespace Mc

/-- What a map keeps of a value is the value at its C type. -/
def Stored (t : IntTy) (v s : Int) : Prop := s = conv (slot t) v

/-- A value in a slot, read as its type, is the value. -/
theorem back {t : IntTy} {v : Int} (h : InTy t v) : conv (cTy t) (conv (slot t) v) = v := by
  cases t <;> simp only [InTy, loTy, hiTy] at h <;>
    simp only [cTy, slot, kind, conv, Bool.false_eq_true, if_true, if_false, Int.bmod_def] <;> omega

theorem width (t : IntTy) : (cTy t).1 ≤ (slot t).1 := by cases t <;> decide

theorem lit_narrow {d : Int} (h : -2147483648 < d ∧ d ≤ 2147483647) : (Ex.lit d).ty = (32, true) := by
  show (if -2147483648 < d ∧ d ≤ 2147483647 then (32, true) else if d ≤ maxI64 then (64, true) else (64, false)) = _
  rw [if_pos h]

end Mc

open Mc

/-! ### C335: the value of get_or_default -/

/-- C335: `get_or_default` gives the value of the key, or the default. -/
def C335_statement : Prop := ∀ (κ : Type) (k : κ) (m : κ → Option Int) (vt : IntTy) (d : Ex) (w : Option Int),
  (∀ v, w = some v → InTy vt v) → InTy vt d.val → m k = w.map (conv (slot vt)) →
  getOrDefault (.ok k) m vt d = .ok (w.getD d.val)

/-- `maps.get_or_default(m, "a", 0)` of an `int` 2³² + 5 is 5; that of a byte reads four bytes of a value of one. -/
theorem C335_witness :
    getOrDefault (.ok ()) (fun _ => some (conv (slot .int) 4294967301)) .int (.lit 0) = .ok 5 ∧
    getOrDefault (.ok ()) (fun _ => some (conv (slot .byte) 7)) .byte (.lit 0) = .ub := by decide +kernel

theorem C335_fails : ¬ C335_statement := fun h => by
  have := h Unit () (fun _ => some (conv (slot .int) 4294967301)) .int (.lit 0) (some 4294967301)
    (by intro v hv; rw [← Option.some.inj hv]; simp only [InTy, loTy, hiTy]; omega)
    (by simp only [Ex.val, InTy, loTy, hiTy]; omega) rfl
  rw [C335_witness.1] at this
  revert this
  decide

/-- If the default is a variable of the type of the values, the value or the default is given. If it is a literal that fits in 32 bits, the
low 32 bits of the value are given, so an `int` exactly if it fits in 32 bits as well. A missing key always gives the default. -/
theorem C335_partial {κ : Type} (k : κ) (m : κ → Option Int) (vt : IntTy) :
    (∀ d : Int, ∀ w : Option Int, (∀ v, w = some v → InTy vt v) → m k = w.map (conv (slot vt)) →
      getOrDefault (.ok k) m vt (.var vt d) = .ok (w.getD d)) ∧
    (∀ (d v : Int), InTy vt v → m k = some (conv (slot vt) v) → (-2147483648 < d ∧ d ≤ 2147483647) → (slot vt).1 = 64 →
      getOrDefault (.ok k) m vt (.lit d) = .ok (v.bmod (2 ^ 32)) ∧
      (getOrDefault (.ok k) m vt (.lit d) = .ok v ↔ -2147483648 ≤ v ∧ v ≤ 2147483647)) ∧
    (∀ d, m k = none → getOrDefault (.ok k) m vt d = .ok d.val) := by
  refine ⟨?_, ?_, ?_⟩
  · intro d w hw hm
    unfold getOrDefault
    rw [Outcome.bind_ok, hm]
    cases w with
    | none => rfl
    | some v =>
      show valueAs vt (.var vt d) (conv (slot vt) v) = _
      unfold valueAs
      show (if (slot vt).1 < (cTy vt).1 then _ else Outcome.ok (conv (cTy vt) (conv (slot vt) v))) = _
      rw [if_neg (Nat.not_lt.2 (width vt)), back (hw v rfl)]
      rfl
  · intro d v hv hm hd hs
    have e : getOrDefault (.ok k) m vt (.lit d) = .ok (v.bmod (2 ^ 32)) := by
      unfold getOrDefault
      rw [Outcome.bind_ok, hm]
      show valueAs vt (.lit d) (conv (slot vt) v) = _
      unfold valueAs
      rw [lit_narrow hd]
      dsimp only
      rw [if_neg (by omega)]
      congr 1
      have : slot vt = (64, true) := by cases vt <;> first | rfl | exact absurd hs (by decide)
      rw [this]
      simp only [conv, if_true, Int.bmod_def]
      omega
    refine ⟨e, ?_⟩
    rw [e]
    constructor
    · intro q
      have := Outcome.ok.inj q
      simp only [Int.bmod_def] at this
      omega
    · intro q
      congr 1
      simp only [Int.bmod_def]
      omega
  · intro d hm
    unfold getOrDefault
    rw [Outcome.bind_ok, hm]

example : getOrDefault (.ok ()) (fun _ => some (conv (slot .uint) 18446744073709551615)) .uint (.var .uint 0) = .ok 18446744073709551615 := by
  decide +kernel

/-! ### C336: keys -/

/-- C336: `has_key` and `get_or_default` look for the key that is given. -/
def C336_statement : Prop := ∀ (kt : IntTy) (keys : List Int) (k : Ex), (∀ x ∈ keys, InTy kt x) →
  (hasKey kt (fun s => if s ∈ keys.map (conv (slot kt)) then some 1 else none) k = true ↔ k.val ∈ keys) ∧
  getOrDefault (keyAuto kt k) (fun s => if s ∈ keys.map (conv (slot kt)) then some 1 else none) .int (.var .int 0) =
    .ok (if k.val ∈ keys then 1 else 0)

/-- A literal as key of `get_or_default` on a `map[int:…]` is a C `int`, of which 8 bytes are read; so is a variable of type `i32` on a
`map[i32:…]`. `has_key(m, 261)` finds 5 in a map of bytes. -/
theorem C336_witness : keyAuto .int (.lit 5) = .ub ∧ keyAuto .i32 (.var .i32 5) = .ub ∧
    hasKey .byte (fun s => if s ∈ [5].map (conv (slot .byte)) then some 1 else none) (.lit 261) = true := by decide +kernel

theorem C336_fails : ¬ C336_statement := fun h => by
  have := (h .int [] (.lit 5) (fun _ q => nomatch q)).2
  rw [C336_witness.1] at this
  exact nomatch this

namespace Mc

theorem slot_inj {t : IntTy} {a b : Int} (ha : InTy t a) (hb : InTy t b) (h : conv (slot t) a = conv (slot t) b) : a = b := by
  rw [← back ha, ← back hb, h]

theorem mem_slots {t : IntTy} {keys : List Int} {v : Int} (hk : ∀ x ∈ keys, InTy t x) (hv : InTy t v) :
    conv (slot t) v ∈ keys.map (conv (slot t)) ↔ v ∈ keys := by
  constructor
  · intro h
    obtain ⟨x, hx, e⟩ := List.mem_map.1 h
    rw [← slot_inj (hk x hx) hv e]; exact hx
  · exact List.mem_map_of_mem

end Mc

/-- A key of the type of the keys, in any form, is found by `has_key` exactly if it is in the map. `get_or_default` looks for the same key
exactly if the C type of the text has as many bits as the slot, so for variables of `int`, `i64`, `uint`, `u64`, `byte` and `char` on their
maps, and reads past the key otherwise. -/
theorem C336_partial (kt : IntTy) (keys : List Int) (k : Ex) (hk : ∀ x ∈ keys, InTy kt x) (hv : InTy kt k.val) :
    (hasKey kt (fun s => if s ∈ keys.map (conv (slot kt)) then some 1 else none) k = true ↔ k.val ∈ keys) ∧
    (keyAuto kt k = .ok (conv (slot kt) k.val) ↔ (slot kt).1 ≤ k.ty.1) ∧ (keyAuto kt k = .ub ↔ k.ty.1 < (slot kt).1) ∧
    ((slot kt).1 ≤ k.ty.1 →
      getOrDefault (keyAuto kt k) (fun s => if s ∈ keys.map (conv (slot kt)) then some 1 else none) .int (.var .int 0) =
        .ok (if k.val ∈ keys then 1 else 0)) := by
  have hm := mem_slots hk hv
  have h1 : (keyAuto kt k = .ok (conv (slot kt) k.val) ↔ (slot kt).1 ≤ k.ty.1) := by
    unfold keyAuto
    by_cases h : k.ty.1 < (slot kt).1
    · rw [if_pos h]
      constructor
      · intro q; exact nomatch q
      · intro q; omega
    · rw [if_neg h]
      exact ⟨fun _ => by omega, fun _ => rfl⟩
  refine ⟨?_, h1, ?_, ?_⟩
  · unfold hasKey keySlot
    dsimp only
    by_cases h : k.val ∈ keys
    · rw [if_pos (hm.2 h)]; exact ⟨fun _ => h, fun _ => rfl⟩
    · rw [if_neg (fun q => h (hm.1 q))]; exact ⟨fun q => (nomatch q), fun q => absurd q h⟩
  · unfold keyAuto
    by_cases h : k.ty.1 < (slot kt).1
    · rw [if_pos h]; exact ⟨fun _ => h, fun _ => rfl⟩
    · rw [if_neg h]; exact ⟨fun q => (nomatch q), fun q => absurd q h⟩
  · intro h
    rw [h1.2 h]
    unfold getOrDefault
    rw [Outcome.bind_ok]
    dsimp only
    by_cases hq : k.val ∈ keys
    · rw [if_pos (hm.2 hq), if_pos hq]; decide +kernel
    · rw [if_neg (fun q => hq (hm.1 q)), if_neg hq]; rfl

/-- Which variables are wide enough as keys of maps of their own type -/
theorem C336_types (t : IntTy) (v : Int) :
    keyAuto t (.var t v) = .ub ↔ t = .i8 ∨ t = .i16 ∨ t = .i32 ∨ t = .u8 ∨ t = .u16 ∨ t = .u32 := by
  cases t <;> simp [keyAuto, Ex.ty, cTy, slot, kind]

example : keyAuto .byte (.lit 5) = .ok 5 ∧ keyAuto .uint (.var .uint 5) = .ok 5 := by decide +kernel

/-! ### C337: contains_value -/

/-- C337: `contains_value` says whether some value equals the one given. -/
def C337_statement : Prop := ∀ (vt : IntTy) (vs : List Int) (v : Ex), (∀ x ∈ vs, InTy vt x) →
  (containsValue vt (vs.map (conv (slot vt))) v = true ↔ v.val ∈ vs)

/-- 261 is found in a map that has the byte 5. -/
theorem C337_witness : containsValue .byte ([5].map (conv (slot .byte))) (.lit 261) = true := by decide +kernel

theorem C337_fails : ¬ C337_statement := fun h => by
  have := (h .byte [5] (.lit 261) (by
    intro x hx; rw [List.mem_singleton.1 hx]; simp only [InTy, loTy, hiTy]; omega)).1 C337_witness
  exact absurd this (by decide)

/-- It does for values of the type of the values. -/
theorem C337_partial (vt : IntTy) (vs : List Int) (v : Ex) (hx : ∀ x ∈ vs, InTy vt x) (hv : InTy vt v.val) :
    containsValue vt (vs.map (conv (slot vt))) v = true ↔ v.val ∈ vs := by
  have key : ∀ x, InTy vt x → ((conv ((slot vt).1, false) (conv (64, true) v.val) = conv ((slot vt).1, false) (conv (slot vt) x)) ↔ v.val = x) := by
    intro x h
    revert hv h
    generalize v.val = z
    cases vt <;> simp only [InTy, loTy, hiTy, slot, kind, conv, Bool.false_eq_true, if_true, if_false, Int.bmod_def] <;> intro h1 h2 <;> omega
  unfold containsValue
  rw [List.any_eq_true]
  constructor
  · rintro ⟨s, hs, e⟩
    obtain ⟨x, hxm, rfl⟩ := List.mem_map.1 hs
    rw [(key x (hx x hxm)).1 (beq_iff_eq.1 e)]
    exact hxm
  · intro h
    exact ⟨_, List.mem_map_of_mem h, beq_iff_eq.2 ((key _ hv).2 rfl)⟩

example : containsValue .uint ([18446744073709551615].map (conv (slot .uint))) (.var .uint 18446744073709551615) = true := by decide +kernel

end Verif.Props

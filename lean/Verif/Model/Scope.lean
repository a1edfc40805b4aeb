import Verif.Model.Str

/-
Scopes of the type checker: /repo/grayc/src/typechecker/scope.c.

Simplifications.
* The fields of a symbol that `scope_define` sets (type and mutability) are one value of a type `V`; the fields other code
  sets afterwards are left out.
* The hash table is a function from slots to entries, and `hash_cap` is 0 for no table. `symbols` is a list; its capacity
  is left out (`xrealloc` does not return on failure), and so is the memory of scopes destroyed.
* The counters are natural numbers: `new_count * 2` overflows `int` only with 2^30 symbols in one scope.
* The loops over slots have no bound in C; here they get as many rounds as there are slots, and the result is none
  if these are not enough.
-/
namespace Verif.Scope
open Verif Verif.Str

/-- `scope_str_hash` (18-23), in `uint32_t`. -/
def strHash (s : Str) : Nat := s.foldl (fun h c => (h * 33) % 2 ^ 32 ^^^ c.toNat) 5381

/-- The entries of a table: name and index, by slot. -/
abbrev Table := Nat → Option (Str × Nat)

/-- The loop of `scope_hash_insert` (28-35). -/
def insLoop (mask : Nat) (name : Str) (idx : Nat) : Nat → Table → Nat → Option Table
  | 0, _, _ => none
  | f + 1, t, h =>
    match t h with
    | none => some fun x => if x = h then some (name, idx) else t x
    | some _ => insLoop mask name idx f t ((h + 1) &&& mask)

/-- `scope_hash_insert` (25-36). -/
def insert (cap : Nat) (t : Table) (name : Str) (idx : Nat) : Option Table :=
  insLoop (cap - 1) name idx cap t (strHash name &&& (cap - 1))

structure Scp (V : Type) where
  syms : List (Str × V)
  cap : Nat
  tab : Table

/-- `scope_create` (46-51). -/
def create {V : Type} : Scp V := ⟨[], 0, fun _ => none⟩

/-- The loop of `scope_hash_rebuild` (42-43), from an index. -/
def rebuildLoop {V : Type} (cap : Nat) : List (Str × V) → Nat → Table → Option Table
  | [], _, t => some t
  | s :: r, i, t =>
    match insert cap t s.1 i with
    | none => none
    | some t => rebuildLoop cap r (i + 1) t

/-- The loop of `scope_lookup_local` (108-113): the index of the symbol, or none inside. -/
def lookLoop (mask : Nat) (t : Table) (name : Str) : Nat → Nat → Option (Option Nat)
  | 0, _ => none
  | f + 1, h =>
    match t h with
    | none => some none
    | some e => if e.1 = name then some (some e.2) else lookLoop mask t name f ((h + 1) &&& mask)

/-- `scope_lookup_local` (104-120). -/
def lookupLocal {V : Type} (s : Scp V) (name : Str) : Option (Option Nat) :=
  if s.cap ≠ 0 then lookLoop (s.cap - 1) s.tab name s.cap (strHash name &&& (s.cap - 1))
  else some (s.syms.findIdx? fun e => e.1 = name)

/-- The loop that doubles the capacity (70). -/
def grow (need : Nat) : Nat → Nat → Option Nat
  | 0, _ => none
  | f + 1, c => if need < c ∨ need = c then some c else grow need f (c * 2)

/-- The table before a symbol is added (67-72). -/
def room {V : Type} (s : Scp V) : Option (Nat × Table) :=
  if s.cap = 0 ∨ s.cap < (s.syms.length + 1) * 2 then
    match grow ((s.syms.length + 1) * 2) ((s.syms.length + 1) * 2 + 1) (if s.cap ≠ 0 then s.cap * 2 else 16) with
    | none => none
    | some c => (rebuildLoop c s.syms 0 fun _ => none).map fun t => (c, t)
  else some (s.cap, s.tab)

/-- `scope_define` (53-80). -/
def define {V : Type} (s : Scp V) (name : Str) (v : V) : Option (Scp V) :=
  match lookupLocal s name with
  | none => none
  | some (some i) => some { s with syms := s.syms.modify i fun e => (e.1, v) }
  | some none =>
    match room s with
    | none => none
    | some (c, t) =>
      match insert c t name s.syms.length with
      | none => none
      | some t => some ⟨s.syms ++ [(name, v)], c, t⟩

/-- `scope_lookup` (82-88) in a stack of scopes, the innermost first. -/
def lookup {V : Type} : List (Scp V) → Str → Option (Option V)
  | [], _ => some none
  | s :: r, name =>
    match lookupLocal s name with
    | none => none
    | some (some i) => some ((s.syms[i]?).map (·.2))
    | some none => lookup r name

end Verif.Scope

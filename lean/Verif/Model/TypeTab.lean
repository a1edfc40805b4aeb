import Verif.Model.Str
/-
The table of the types of nodes (/repo/grayc/src/typechecker/typechecker.c 50-127), the pool of types with its index
(/repo/grayc/src/typechecker/types.c 30-132, 396-428; the types made outside of the index at typechecker.c 7102 and 7138), and the texts of
types with their buffers (types.c 320-352).

Simplifications.
* Tables are functions from slots to entries. The loops over slots have no bound in C; here they get as many rounds as there are
  slots, and the result is none if these are not enough.
* Counters are natural numbers: `count * 10` overflows `int` only with 2^27 nodes.
* A type of the pool is its kind, as a number, and its name; the other fields are set from these.
-/
namespace Verif.TypeTab
open Verif Verif.Str

abbrev Slots (K V : Type) := Nat → Option (K × V)

/-! ### The table of nodes -/

/-- `hash_ptr` (50-55), for 64-bit pointers. -/
def hashPtr (p : Nat) : Nat :=
  let h := ((p >>> 4 ^^^ p) * 0x9E3779B9) % 2 ^ 64
  (h ^^^ h >>> 16) % 2 ^ 32

/-- The loop of `typetable_set` (96-111); whether the slot was empty. -/
def setLoop {K V : Type} [DecidableEq K] (mask : Nat) (k : K) (v : V) : Nat → Slots K V → Nat → Option (Slots K V × Bool)
  | 0, _, _ => none
  | f + 1, t, i =>
    match t i with
    | none => some (fun x => if x = i then some (k, v) else t x, true)
    | some e =>
      if e.1 = k then some (fun x => if x = i then some (k, v) else t x, false)
      else setLoop mask k v f t ((i + 1) &&& mask)

/-- The loop of `typetable_get` (120-124) and of `pool_find` (types.c 68-73). -/
def getLoop {K V : Type} [DecidableEq K] (mask : Nat) (t : Slots K V) (k : K) : Nat → Nat → Option (Option V)
  | 0, _ => none
  | f + 1, i =>
    match t i with
    | none => some none
    | some e => if e.1 = k then some (some e.2) else getLoop mask t k f ((i + 1) &&& mask)

structure Tab (K V : Type) where
  cap : Nat
  count : Nat
  slots : Slots K V

/-- `typetable_create` (57-63) -/
def create {K V : Type} : Tab K V := ⟨256, 0, fun _ => none⟩

/-- `typetable_set` after the growth (93-111). -/
def put {K V : Type} [DecidableEq K] (hash : K → Nat) (t : Tab K V) (k : K) (v : V) : Option (Tab K V) :=
  (setLoop (t.cap - 1) k v t.cap t.slots (hash k &&& (t.cap - 1))).map fun r =>
    ⟨t.cap, if r.2 then t.count + 1 else t.count, r.1⟩

/-- The loop of `typetable_grow` (77-81) over the first `n` old slots. -/
def copyLoop {K V : Type} (set : Tab K V → K → V → Option (Tab K V)) (old : Slots K V) (t : Tab K V) : Nat → Option (Tab K V)
  | 0 => some t
  | n + 1 =>
    match copyLoop set old t n with
    | none => none
    | some t =>
      match old n with
      | none => some t
      | some e => set t e.1 e.2

/-- `typetable_set` (87-112) and `typetable_grow` (67-84), which call each other; the first argument bounds the depth. -/
def setDepth {K V : Type} [DecidableEq K] (hash : K → Nat) : Nat → Tab K V → K → V → Option (Tab K V)
  | 0, _, _, _ => none
  | d + 1, t, k, v =>
    if t.count * 10 ≥ t.cap * 7 then
      match copyLoop (setDepth hash d) t.slots ⟨t.cap * 2, 0, fun _ => none⟩ t.cap with
      | none => none
      | some t => put hash t k v
    else put hash t k v

/-- A growth within a growth would be the third level. -/
def set {K V : Type} [DecidableEq K] (hash : K → Nat) (t : Tab K V) (k : K) (v : V) : Option (Tab K V) := setDepth hash 2 t k v

/-- `typetable_get` (114-125) -/
def get {K V : Type} [DecidableEq K] (hash : K → Nat) (t : Tab K V) (k : K) : Option (Option V) :=
  getLoop (t.cap - 1) t.slots k t.cap (hash k &&& (t.cap - 1))

/-! ### The pool -/

/-- `type_hash` (types.c 55-60) -/
def typeHash (key : Nat × Str) : Nat :=
  key.2.foldl (fun h c => (h * 33) % 2 ^ 32 ^^^ c.toNat) (5381 ^^^ key.1 * 2654435761 % 2 ^ 32)

/-- `TYPE_POOL_CAPACITY`, `TYPE_HASH_CAP` -/
def poolCap : Nat := 4096
def hashCap : Nat := 8192

structure Pool where
  types : List (Nat × Str)
  slots : Slots (Nat × Str) Nat

def emptyPool : Pool := ⟨[], fun _ => none⟩

inductive Res (α : Type) where
  | ok (a : α)
  /-- "type pool exhausted" -/
  | exit
  /-- The loop has not ended. -/
  | loop

/-- `type_alloc` (36-42) and the fields. -/
def alloc (p : Pool) (key : Nat × Str) : Res (Pool × Nat) :=
  if poolCap ≤ p.types.length then .exit else .ok (⟨p.types ++ [key], p.slots⟩, p.types.length)

/-- `pool_find` (63-75) -/
def poolFind (p : Pool) (key : Nat × Str) : Option (Option Nat) :=
  getLoop (hashCap - 1) p.slots key hashCap (typeHash key &&& (hashCap - 1))

/-- The loop of `pool_insert` (81-90): names are not compared. -/
def insLoop (mask : Nat) (key : Nat × Str) (v : Nat) : Nat → Slots (Nat × Str) Nat → Nat → Option (Slots (Nat × Str) Nat)
  | 0, _, _ => none
  | f + 1, t, i =>
    match t i with
    | none => some fun x => if x = i then some (key, v) else t x
    | some _ => insLoop mask key v f t ((i + 1) &&& mask)

/-- `type_array`, `type_struct`, `type_enum`, `type_pointer` and the like. -/
def intern (p : Pool) (key : Nat × Str) : Res (Pool × Nat) :=
  match poolFind p key with
  | none => .loop
  | some (some i) => .ok (p, i)
  | some none =>
    match alloc p key with
    | .ok (q, i) =>
      match insLoop (hashCap - 1) key i hashCap q.slots (typeHash key &&& (hashCap - 1)) with
      | none => .loop
      | some t => .ok (⟨q.types, t⟩, i)
    | .exit => .exit
    | .loop => .loop

inductive Op where
  | intern (key : Nat × Str)
  /-- A map literal or a range (typechecker.c 7102, 7138). -/
  | fresh (key : Nat × Str)

def step (p : Pool) : Op → Res (Pool × Nat)
  | .intern key => intern p key
  | .fresh key => alloc p key

/-- The types that the operations give, by their places in the pool. -/
def run (p : Pool) : List Op → Res (Pool × List Nat)
  | [] => .ok (p, [])
  | o :: r =>
    match step p o with
    | .ok (q, i) =>
      match run q r with
      | .ok (q, is) => .ok (q, i :: is)
      | .exit => .exit
      | .loop => .loop
    | .exit => .exit
    | .loop => .loop

/-! ### Texts -/

inductive T where
  | named (n : Str)
  | pointer (n : Str)
  | array (e : Str)
  | map (k v : Str)

/-- `snprintf` into `TYPE_NAME_MAX` bytes. -/
def cut (s : Str) : Str := s.take 127

/-- `type_name` (320-352) -/
def typeName : T → Str
  | .named n => n
  | .pointer n => cut (lit "^" ++ n)
  | .array e => cut (lit "[" ++ e ++ lit "]")
  | .map k v => cut (lit "map[" ++ k ++ lit ":" ++ v ++ lit "]")

/-- The four buffers of one kind and the next one. -/
structure Ring where
  bufs : Nat → Str
  slot : Nat

/-- A call: the buffer returned and the ring afterwards. -/
def Ring.call (r : Ring) (s : Str) : Nat × Ring := (r.slot, ⟨fun i => if i = r.slot then s else r.bufs i, (r.slot + 1) &&& 3⟩)

def Ring.calls (r : Ring) : List Str → Ring
  | [] => r
  | s :: l => (r.call s).2.calls l

end Verif.TypeTab

import Verif.Model.Outcome

/-
Hash maps: /repo/grayc/src/runtime/map.c and map.h, and the operations of
/repo/grayc/src/stdlib/maps.c that are built on them.

Simplifications.
* The parallel arrays `keys`, `values` and `states` are one list of slots (`capacity` is its
  length).  The key and value bytes left behind in a removed slot are dropped; no code reads
  them (every read is guarded by `states[i] == 1`).
* Keys and values are abstract; hashing and comparison come as a `KeyOps`, and the four key
  kinds of map.h:23-29 are given below as instances.
* Allocation always succeeds.
* `int32_t` arithmetic that would overflow (`count * 4`, `capacity * 3`, `capacity * 2`,
  `idx + i`) and accesses outside the arrays are `Outcome.ub`.
-/
namespace Verif.Map

/-- One entry of the parallel arrays `keys`/`values`/`states` (map.h:34): state 0, 1, 2. -/
inductive Slot (K V : Type) where
  | empty
  | full (k : K) (v : V)
  | tomb
  deriving DecidableEq, Repr

/-- `hash_key` and `keys_equal` for one key kind (map.c:76-108). -/
structure KeyOps (K : Type) where
  hash : K → BitVec 64
  eq : K → K → Bool

/-- `GrayMap` (map.h:31-43). -/
structure GrayMap (K V : Type) where
  slots : List (Slot K V)
  order : List Nat
  count : Nat
  iterating : Nat
  deriving DecidableEq, Repr

variable {K V : Type}

def GrayMap.capacity (m : GrayMap K V) : Nat := m.slots.length

def int32Max : Nat := 2147483647

/-- `GRAY_MAP_MIN_CAP` (map.h:16). -/
def minCap : Nat := 8

/-- `gray_map_new_kind` (map.c:118-134) with a non-negative `initial_cap`. -/
def new (initialCap : Nat) : GrayMap K V :=
  { slots := List.replicate (if initialCap < minCap then minCap else initialCap) .empty
    order := [], count := 0, iterating := 0 }

/-- `(int32_t)(h % (uint64_t)m->capacity)` (map.c:145, 198). -/
def home (ops : KeyOps K) (k : K) (cap : Nat) : Nat := (ops.hash k).toNat % cap

/-- `(idx + i) % m->capacity` (map.c:147, 201). -/
def probe (idx i cap : Nat) : Outcome Nat :=
  if idx + i ≤ int32Max then .ok ((idx + i) % cap) else .ub

/-- The loop of `find_slot` (map.c:146-153), `n` iterations left, counter `i`. -/
def findLoop (ops : KeyOps K) (m : GrayMap K V) (k : K) (idx : Nat) :
    Nat → Nat → Outcome (Option Nat)
  | 0, _ => .ok none
  | n + 1, i =>
    match probe idx i m.capacity with
    | .ok p =>
      match m.slots[p]? with
      | none => .ub
      | some .empty => .ok none
      | some (.full k' _) =>
        if ops.eq k' k then .ok (some p) else findLoop ops m k idx n (i + 1)
      | some .tomb => findLoop ops m k idx n (i + 1)
    | .panic c => .panic c
    | .ub => .ub

/-- `find_slot` (map.c:143-154); `none` is the result -1. -/
def findSlot (ops : KeyOps K) (m : GrayMap K V) (k : K) : Outcome (Option Nat) :=
  findLoop ops m k (home ops k m.capacity) m.capacity 0

/-- The value at a slot index, as `val_ptr` is used on a slot found occupied. -/
def valueAt (m : GrayMap K V) (p : Nat) : Outcome V :=
  match m.slots[p]? with
  | some (.full _ v) => .ok v
  | _ => .ub

/-- `gray_map_get` (map.c:184-188); `none` is NULL. -/
def get (ops : KeyOps K) (m : GrayMap K V) (k : K) : Outcome (Option V) := do
  match ← findSlot ops m k with
  | none => .ok none
  | some p => do
    let v ← valueAt m p
    .ok (some v)

/-- `gray_map_has` (map.c:234-236). -/
def has (ops : KeyOps K) (m : GrayMap K V) (k : K) : Outcome Bool := do
  let r ← findSlot ops m k
  .ok r.isSome

/-- Writing a new entry into `slot` (map.c:210-215 and 225-229). -/
def place (m : GrayMap K V) (slot : Nat) (k : K) (v : V) : Outcome (GrayMap K V) :=
  if m.order.length < m.capacity then
    .ok { m with
      slots := m.slots.set slot (.full k v)
      order := m.order ++ [slot]
      count := m.count + 1 }
  else .ub

/-- The probing loop of `gray_map_set` and what follows it (map.c:200-231): `n` iterations left,
counter `i`, first tombstone seen `ft`. -/
def setLoop (ops : KeyOps K) (m : GrayMap K V) (k : K) (v : V) (idx : Nat) :
    Nat → Nat → Option Nat → Outcome (GrayMap K V)
  | 0, _, none => .ok m
  | 0, _, some t => place m t k v
  | n + 1, i, ft =>
    match probe idx i m.capacity with
    | .ok p =>
      match m.slots[p]? with
      | none => .ub
      | some .tomb =>
        setLoop ops m k v idx n (i + 1) (match ft with | none => some p | some t => some t)
      | some .empty => place m (match ft with | none => p | some t => t) k v
      | some (.full k' _) =>
        if ops.eq k' k then .ok { m with slots := m.slots.set p (.full k' v) }
        else setLoop ops m k v idx n (i + 1) ft
    | .panic c => .panic c
    | .ub => .ub

/-- `gray_map_set` after the load check (map.c:197-231). -/
def insert (ops : KeyOps K) (m : GrayMap K V) (k : K) (v : V) : Outcome (GrayMap K V) :=
  setLoop ops m k v (home ops k m.capacity) m.capacity 0 none

/-- The re-insertion loop of `rehash` (map.c:173-181); `setKV` is the called `gray_map_set`. -/
def refill (setKV : GrayMap K V → K → V → Outcome (GrayMap K V)) (old : List (Slot K V)) :
    List Nat → GrayMap K V → Outcome (GrayMap K V)
  | [], m => .ok m
  | s :: ss, m =>
    match old[s]? with
    | none => .ub
    | some (.full k v) =>
      match setKV m k v with
      | .ok m' => refill setKV old ss m'
      | .panic c => .panic c
      | .ub => .ub
    | some _ => refill setKV old ss m

/-- `rehash` (map.c:156-182). -/
def rehash (setKV : GrayMap K V → K → V → Outcome (GrayMap K V)) (m : GrayMap K V) :
    Outcome (GrayMap K V) :=
  if m.capacity * 2 ≤ int32Max then
    refill setKV m.slots m.order
      { slots := List.replicate (m.capacity * 2) .empty
        order := [], count := 0, iterating := m.iterating }
  else .ub

/-- `gray_map_set` (map.c:190-232).  `rehash` calls `gray_map_set` again; the first argument
limits how deep these calls nest, and running out of it is reported as `ub`. -/
def setDepth (ops : KeyOps K) : Nat → GrayMap K V → K → V → Outcome (GrayMap K V)
  | 0, _, _, _ => .ub
  | d + 1, m, k, v =>
    if 0 < m.iterating then .panic "P0035"
    else if int32Max < m.count * 4 then .ub
    else if int32Max < m.capacity * 3 then .ub
    else if m.capacity * 3 ≤ m.count * 4 then
      match rehash (setDepth ops d) m with
      | .ok m' => insert ops m' k v
      | .panic c => .panic c
      | .ub => .ub
    else insert ops m k v

/-- `gray_map_remove` (map.c:238-257). -/
def remove (ops : KeyOps K) (m : GrayMap K V) (k : K) : Outcome (GrayMap K V × Bool) :=
  if 0 < m.iterating then .panic "P0035"
  else
    match findSlot ops m k with
    | .ok none => .ok (m, false)
    | .ok (some p) =>
      .ok ({ m with
              slots := m.slots.set p .tomb
              count := m.count - 1
              order := m.order.erase p }, true)
    | .panic c => .panic c
    | .ub => .ub

/-- `gray_map_clear` (map.c:259-263).  It does not look at `iterating`. -/
def clear (m : GrayMap K V) : GrayMap K V :=
  { m with slots := List.replicate m.capacity .empty, count := 0, order := [] }

/-- `gray_map_copy` (map.c:281-317).  The copied key strings have the same contents. -/
def copy (m : GrayMap K V) : GrayMap K V := { m with iterating := 0 }

/-- The loop over `order` shared by for_each, get_keys, get_values, printing and merge
(codegen.c:8875-8912, 3247-3275, maps.c:14-38): the entries read, in the order read. -/
def walk (m : GrayMap K V) : List Nat → Outcome (List (K × V))
  | [] => .ok []
  | s :: ss =>
    match m.slots[s]? with
    | none => .ub
    | some (.full k v) =>
      match walk m ss with
      | .ok r => .ok ((k, v) :: r)
      | .panic c => .panic c
      | .ub => .ub
    | some _ => walk m ss

/-- All entries, as a loop over the whole map sees them. -/
def entries (m : GrayMap K V) : Outcome (List (K × V)) := walk m m.order

/-! ### for_each -/

/-- How a loop body ends: normally (or by `continue`), by `break`, or by `return`. -/
inductive Exit where
  | next
  | brk
  | ret
  deriving DecidableEq, Repr

/-- A loop body: it sees the key and value, and may change the map and a state `σ`. -/
abbrev Body (K V σ : Type) := K → V → GrayMap K V → σ → Outcome (GrayMap K V × σ × Exit)

/-- The C loop emitted for `for_each k, v in m` (codegen.c:8873-8912), at index `mi`; `order_len`
is read again before every iteration.  Reading a key out of an unoccupied slot counts as `ub`. -/
inductive Loop {σ : Type} (body : Body K V σ) :
    Nat → GrayMap K V → σ → Outcome (GrayMap K V × σ × Exit) → Prop where
  | done {mi m st} : m.order[mi]? = none → Loop body mi m st (.ok (m, st, .next))
  | bad {mi m st s} : m.order[mi]? = some s → (∀ k v, m.slots[s]? ≠ some (.full k v)) →
      Loop body mi m st .ub
  | stop {mi m st s k v r} : m.order[mi]? = some s → m.slots[s]? = some (.full k v) →
      body k v m st = r → (∀ m' st', r ≠ .ok (m', st', .next)) → Loop body mi m st r
  | step {mi m st s k v m' st' r} : m.order[mi]? = some s → m.slots[s]? = some (.full k v) →
      body k v m st = .ok (m', st', .next) → Loop body (mi + 1) m' st' r → Loop body mi m st r

/-- What follows the loop (codegen.c:8985-8995): `iterating--`, unless the body returned from the
enclosing function, which jumps past it. -/
def afterLoop {σ : Type} : Outcome (GrayMap K V × σ × Exit) → Outcome (GrayMap K V × σ × Exit)
  | .ok (m, st, .ret) => .ok (m, st, .ret)
  | .ok (m, st, _) => .ok ({ m with iterating := m.iterating - 1 }, st, .next)
  | .panic c => .panic c
  | .ub => .ub

/-- The whole statement on a map variable (codegen.c:8868-8912, 8985-8995). -/
def ForEach {σ : Type} (body : Body K V σ) (m : GrayMap K V) (st : σ)
    (r : Outcome (GrayMap K V × σ × Exit)) : Prop :=
  ∃ r0, Loop body 0 { m with iterating := m.iterating + 1 } st r0 ∧ r = afterLoop r0

/-! ### Key kinds -/

/-- `hash_bytes` (map.c:15-23), FNV-1a. -/
def hashBytes (bs : List (BitVec 8)) : BitVec 64 :=
  bs.foldl (fun h b => (h ^^^ b.setWidth 64) * 1099511628211#64) 14695981039346656037#64

/-- The eight bytes of a 64-bit word in memory order (little-endian). -/
def bytes64 (x : BitVec 64) : List (BitVec 8) :=
  (List.range 8).map fun i => (x >>> (8 * i)).setWidth 8

/-- The four bytes of a 32-bit word. -/
def bytes32 (x : BitVec 32) : List (BitVec 8) :=
  (List.range 4).map fun i => (x >>> (8 * i)).setWidth 8

/-- `GRAY_MAP_KEY_BYTES`: the key is its bytes (map.c:88, 106). -/
def bytesOps : KeyOps (List (BitVec 8)) where
  hash := hashBytes
  eq a b := a == b

/-- `GRAY_MAP_KEY_STRING` (map.c:78-81, 95-100): length, then contents. -/
def stringOps : KeyOps (List (BitVec 8)) where
  hash := hashBytes
  eq a b := if a.length ≠ b.length then false else a == b

/-- `v == 0.0` on the bits of a double: both signs of zero. -/
def isZero64 (x : BitVec 64) : Bool := x.setWidth 63 == 0#63

/-- `v != v`: exponent all ones and a nonzero fraction. -/
def isNaN64 (x : BitVec 64) : Bool :=
  (x >>> 52).setWidth 11 == 0x7FF#11 && x.setWidth 52 != 0#52

/-- IEEE `==` on bits. -/
def ieeeEq64 (x y : BitVec 64) : Bool :=
  if isNaN64 x || isNaN64 y then false
  else if isZero64 x && isZero64 y then true
  else x == y

/-- `GRAY_MAP_KEY_F64` (map.c:30-43, 59-66). -/
def f64Ops : KeyOps (BitVec 64) where
  hash x := hashBytes (bytes64
    (if isZero64 x then 0#64 else if isNaN64 x then 0x7FF8000000000000#64 else x))
  eq a b :=
    if isZero64 a && isZero64 b then true
    else if isNaN64 a && isNaN64 b then true
    else ieeeEq64 a b

def isZero32 (x : BitVec 32) : Bool := x.setWidth 31 == 0#31

def isNaN32 (x : BitVec 32) : Bool :=
  (x >>> 23).setWidth 8 == 0xFF#8 && x.setWidth 23 != 0#23

def ieeeEq32 (x y : BitVec 32) : Bool :=
  if isNaN32 x || isNaN32 y then false
  else if isZero32 x && isZero32 y then true
  else x == y

/-- `GRAY_MAP_KEY_F32` (map.c:45-57, 68-75). -/
def f32Ops : KeyOps (BitVec 32) where
  hash x := hashBytes (bytes32
    (if isZero32 x then 0#32 else if isNaN32 x then 0x7FC00000#32 else x))
  eq a b :=
    if isZero32 a && isZero32 b then true
    else if isNaN32 a && isNaN32 b then true
    else ieeeEq32 a b

/-! ### maps.c -/

/-- `gray_maps_get_keys` (maps.c:14-25). -/
def getKeys (m : GrayMap K V) : Outcome (List K) := do
  let es ← entries m
  .ok (es.map (·.1))

/-- `gray_maps_get_values` (maps.c:27-38). -/
def getValues (m : GrayMap K V) : Outcome (List V) := do
  let es ← entries m
  .ok (es.map (·.2))

/-- Setting a list of entries one after the other (the loops of `gray_maps_merge` and of a map
literal, codegen.c:1581-1596). -/
def setAll (setKV : GrayMap K V → K → V → Outcome (GrayMap K V)) :
    List (K × V) → GrayMap K V → Outcome (GrayMap K V)
  | [], m => .ok m
  | (k, v) :: es, m =>
    match setKV m k v with
    | .ok m' => setAll setKV es m'
    | .panic c => .panic c
    | .ub => .ub

/-- `gray_maps_merge` (maps.c:48-72).  `m1->count + m2->count` and its double may overflow. -/
def merge (setKV : GrayMap K V → K → V → Outcome (GrayMap K V)) (m1 m2 : GrayMap K V) :
    Outcome (GrayMap K V) :=
  if int32Max < m1.count + m2.count then .ub
  else if 8 < m1.count + m2.count ∧ int32Max < (m1.count + m2.count) * 2 then .ub
  else do
    let e1 ← entries m1
    let e2 ← entries m2
    let r ← setAll setKV e1
      (new (if 8 < m1.count + m2.count then (m1.count + m2.count) * 2 else 8))
    setAll setKV e2 r

/-- `gray_maps_contains_value` (maps.c:74-83); `same` is `memcmp` on the stored bytes. -/
def containsValue (same : V → V → Bool) (m : GrayMap K V) (v : V) : Outcome Bool := do
  let es ← entries m
  .ok (es.any fun e => same e.2 v)

/-- The loop of `gray_maps_is_equal` (maps.c:89-107). -/
def equalLoop (ops : KeyOps K) (same : V → V → Bool) (b : GrayMap K V) :
    List (K × V) → Outcome Bool
  | [] => .ok true
  | (k, v) :: es =>
    match get ops b k with
    | .ok none => .ok false
    | .ok (some v') => if same v v' then equalLoop ops same b es else .ok false
    | .panic c => .panic c
    | .ub => .ub

/-- `gray_maps_is_equal` (maps.c:85-109) for maps of one type; `same` compares values by content
for strings and by `memcmp` otherwise. -/
def isEqual (ops : KeyOps K) (same : V → V → Bool) (a b : GrayMap K V) : Outcome Bool := do
  if a.count ≠ b.count then .ok false
  else
    let es ← entries a
    equalLoop ops same b es

end Verif.Map

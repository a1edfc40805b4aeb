import Verif.Model.IntOps
/-
Calls of the functions of `maps` on maps of integers: the C text (/repo/grayc/src/codegen/codegen.c, `emit_maps_call`, with
`gray_map_element_c_type` 441-463 and integer literals 1049-1064), and the bytes that the functions look at
(/repo/grayc/src/runtime/map.c `gray_map_get`, /repo/grayc/src/stdlib/maps.c 33-83).
The checker looks at the first argument only (/repo/grayc/src/typechecker/typechecker.c 931-943, 2290-2385).

Simplifications.
* A map is a function from stored keys to stored values (C19); keys of other types than integers are any type `κ` here.
* Keys and values are variables of the types of up to 64 bits, and literals. The machine is little-endian with an `int` of 32 bits.
-/
namespace Verif.MapCalls
open Verif Verif.IntOps

/-- The C type in which a map keeps integers (441-463) -/
def slot (t : IntTy) : Nat × Bool :=
  match kind t with
  | .kByte => (8, false)
  | .kChar => (32, true)
  | _ => (64, true)

/-- A variable of a type, or a literal -/
inductive Ex where
  | var (t : IntTy) (v : Int)
  | lit (v : Int)
  deriving DecidableEq

def Ex.val : Ex → Int
  | .var _ v => v
  | .lit v => v

/-- The C type of the text: a literal is an `int` if it fits, else a `long`, or has the suffix `ULL` (1049-1064). -/
def Ex.ty : Ex → Nat × Bool
  | .var t _ => cTy t
  | .lit v => if -2147483648 < v ∧ v ≤ 2147483647 then (32, true) else if v ≤ maxI64 then (64, true) else (64, false)

/-- The key of `has_key` and `remove_key`: `T _hk = k` with the type of the slot -/
def keySlot (kt : IntTy) (k : Ex) : Int := conv (slot kt) k.val

def hasKey (kt : IntTy) (m : Int → Option Int) (k : Ex) : Bool := (m (keySlot kt k)).isSome

/-- The key of `get_or_default`: `__auto_type _gk = k` has the type of the expression, and the bytes of a key are read from it; `ub` if it
has fewer. -/
def keyAuto (kt : IntTy) (k : Ex) : Outcome Int :=
  if k.ty.1 < (slot kt).1 then .ub else .ok (conv (slot kt) k.val)

/-- The value of `get_or_default`: `*(__typeof__(d) *)_gv`; `ub` if that goes past the slot. -/
def valueAs (vt : IntTy) (d : Ex) (stored : Int) : Outcome Int :=
  if (slot vt).1 < d.ty.1 then .ub else .ok (conv d.ty stored)

/-- `({ __auto_type _gk = k; void *_gv = gray_map_get(&m, &_gk); _gv ? *(__typeof__(d) *)_gv : d; })` -/
def getOrDefault {κ : Type} (key : Outcome κ) (m : κ → Option Int) (vt : IntTy) (d : Ex) : Outcome Int :=
  key >>= fun k =>
    match m k with
    | none => .ok d.val
    | some v => valueAs vt d v

/-- `contains_value`: `int64_t _cv = v`, of which as many bytes are compared as a value has -/
def containsValue (vt : IntTy) (stored : List Int) (v : Ex) : Bool :=
  stored.any fun s => conv ((slot vt).1, false) (conv (64, true) v.val) == conv ((slot vt).1, false) s

end Verif.MapCalls

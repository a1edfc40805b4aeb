import Verif.Model.Outcome

/-
The arena allocator (/repo/grayc/src/runtime/runtime.c:36-125 and 185-207, runtime.h:27-45,
stdlib/mem.c:16-36).

Simplifications.
* Blocks are numbered in the order they are made; a pointer into a block is the number of the block and
  an offset into `data`. `malloc` succeeds.
* The list of an arena is the chain of blocks from `first`; `current` is its position in the chain. A
  mark keeps the position of the block it points to.
* Assigning `current->next` cuts off what followed in the chain; blocks cut off are still allocated.
-/
namespace Verif.Arena
open Verif

structure Block where
  id : Nat
  size : Nat
  used : Nat
  deriving DecidableEq

/-- `GrayArena` (runtime.h:34-39); `made` counts the blocks ever allocated for it. -/
structure Arena where
  dflt : Nat
  blocks : List Block
  cur : Nat
  made : Nat
  destroyed : Bool
  deriving DecidableEq

/-- `gray_arena_create` (51-62). -/
def create (size : Nat) : Arena := ⟨size, [⟨0, size, 0⟩], 0, 1, false⟩

/-- `ALIGN_UP(size, 8)` on `size_t`. -/
def alignUp (n : Nat) : Nat := (n + 7) % 2 ^ 64 / 8 * 8

/-- What `gray_arena_alloc` returns: the block, the offset and the bytes cleared. -/
structure Chunk where
  id : Nat
  off : Nat
  size : Nat
  deriving DecidableEq

/-- `gray_arena_alloc` (64-79); following a null pointer is undefined. -/
def alloc (a : Arena) (size : Nat) : Outcome (Arena × Chunk) :=
  if a.destroyed then .panic "P0001"
  else
    let n := alignUp size
    match a.blocks[a.cur]? with
    | none => .ub
    | some b =>
      if b.size < (b.used + n) % 2 ^ 64 then
        let new : Block := ⟨a.made, if a.dflt < n then n else a.dflt, n⟩
        .ok ({ a with blocks := a.blocks.take (a.cur + 1) ++ [new], cur := a.cur + 1, made := a.made + 1 },
          ⟨a.made, 0, n⟩)
      else
        .ok ({ a with blocks := a.blocks.set a.cur { b with used := (b.used + n) % 2 ^ 64 } }, ⟨b.id, b.used, n⟩)

/-- `gray_arena_reset` (81-89). -/
def reset (a : Arena) : Arena := { a with blocks := a.blocks.map fun b => { b with used := 0 }, cur := 0 }

/-- `gray_arena_destroy` (91-107): the arena, and the numbers of the blocks freed. -/
def destroy (a : Arena) : Outcome (Arena × List Nat) :=
  if a.destroyed then .panic "P0002"
  else .ok ({ a with blocks := [], cur := 0, destroyed := true }, a.blocks.map Block.id)

/-- `gray_arena_usage` (109-117). -/
def usage (a : Arena) : Nat := (a.blocks.map Block.used).sum

/-- `GrayScopeMark`; none for a null block. -/
abbrev Mark := Option (Nat × Nat)

/-- `gray_scope_save` (187-192). -/
def save (a : Arena) : Mark := (a.blocks[a.cur]?).map fun b => (a.cur, b.used)

/-- `gray_scope_restore` (194-206). -/
def restore (a : Arena) : Mark → Arena
  | none => a
  | some (i, u) =>
    match a.blocks[i]? with
    | none => a
    | some b =>
      { a with
        blocks := a.blocks.take i ++ { b with used := u } :: (a.blocks.drop (i + 1)).map fun b => { b with used := 0 }
        cur := i }

/-- The bytes of the blocks. -/
abbrev Mem := Nat → Nat → BitVec 8

/-- The bytes after `memset(ptr, 0, size)`. -/
def clear (m : Mem) (c : Chunk) : Mem :=
  fun i k => if i = c.id ∧ c.off ≤ k ∧ k < c.off + c.size then 0 else m i k

end Verif.Arena

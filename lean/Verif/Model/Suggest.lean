import Verif.Model.Str

/-!
# "Did you mean …?"

Models `levenshtein` and `suggest_similar_name` (`grayc/src/typechecker/typechecker.c` 1258-1310).

Simplifications.
* C strings are byte lists without their terminating NUL; `a[i-1]` and `b[j-1]` are read by walking down the lists.
* The `int` values stay below 2^31 (names of a source file are shorter than that) and are natural numbers.
* An access outside `row` makes the result `none`.
* Memory that was never written reads as 0.
-/

namespace Verif.Suggest
open Verif.Str

/-- Number of elements of `row`, lines 1264-1265: 256 on the stack, or `lb + 1` from the heap. -/
def rowCap (lb : Nat) : Nat := if lb < 256 then 256 else lb + 1

/-- `row[j] = v`. -/
def put (row : List Nat) (j v : Nat) : Option (List Nat) :=
  if j < row.length then some (row.set j v) else none

/-- Line 1266: `for (j = 0; j <= lb; j++) row[j] = j`; `n` values from `j` on are still to be written. -/
def fill : Nat → Nat → List Nat → Option (List Nat)
  | 0, _, row => some row
  | n + 1, j, row => (put row j j).bind fun row => fill n (j + 1) row

/-- Lines 1270-1276, for a fixed character `c = a[i-1]`: the rest of `b` from index `j - 1` on. -/
def inner (c : Byte) : Str → Nat → Nat → List Nat → Option (List Nat)
  | [], _, _, row => some row
  | d :: b, j, prev, row => do
    let cost := if c = d then 0 else 1
    let rj ← row[j]?
    let rl ← row[j - 1]?
    let del := rj + 1
    let ins := rl + 1
    let sub := prev + cost
    let v := if del < ins then (if del < sub then del else sub) else (if ins < sub then ins else sub)
    let row ← put row j v
    inner c b (j + 1) rj row

/-- Lines 1267-1277: the rest of `a` from index `i - 1` on. -/
def outer (b : Str) : Str → Nat → List Nat → Option (List Nat)
  | [], _, row => some row
  | c :: a, i, row => do
    let prev ← row[0]?
    let row ← put row 0 i
    let row ← inner c b 1 prev row
    outer b a (i + 1) row

/-- `levenshtein`, lines 1260-1281. -/
def levenshtein (a b : Str) : Option Nat :=
  if a.length = 0 then some b.length
  else if b.length = 0 then some a.length
  else do
    let row ← fill (b.length + 1) 0 (List.replicate (rowCap b.length) 0)
    let row ← outer b a 1 row
    row[b.length]?

/-- One of the two loops of `suggest_similar_name`: `best` and `best_dist` are carried along. -/
def scan (name : Str) : List Str → Option Str × Nat → Option (Option Str × Nat)
  | [], s => some s
  | x :: xs, (best, bestDist) =>
    (levenshtein name x).bind fun d =>
      if 0 < d ∧ d < bestDist then scan name xs (some x, d) else scan name xs (best, bestDist)

/-- The loop over the scopes, innermost first, lines 1290-1298. -/
def scanScopes (name : Str) : List (List Str) → Option Str × Nat → Option (Option Str × Nat)
  | [], s => some s
  | sc :: scs, s => (scan name sc s).bind fun s => scanScopes name scs s

/-- `suggest_similar_name`, lines 1285-1310. -/
def suggest (scopes : List (List Str)) (funcs : List Str) (name : Str) : Option (Option Str) :=
  (scanScopes name scopes (none, 3)).bind fun s => (scan name funcs s).map (·.1)

end Verif.Suggest

import Mathlib.Data.List.Basic

/-!
# Deep copy: the plan the compiler emits and what it does to memory

Part one is the emitter in grayc/src/codegen/codegen.c: given the *name* of a type it prints a C
expression that copies a value of that type. We model the printed expression by a `Plan`.

Part two is the effect of such an expression, and of the later operations on containers, on a heap of
blocks. Arrays, maps and strings are headers which hold the address of a block; structs are stored in
place.

Type names are lists of characters.
-/

namespace Verif.Copy

/-! ## The emitter -/

abbrev Name := List Char

/-- A declared struct: its name and the names of the field types in order (ast.h `StructField`). -/
structure Decl where
  name : Name
  fields : List Name
  deriving DecidableEq, Repr

abbrev Env := List Decl

/-- `find_struct_declaration`, grayc/src/codegen/codegen.c:3126-3134. -/
def find (env : Env) (n : Name) : Option Decl := env.find? (fun d => d.name = n)

/-- `CYCLE_GUARD_DEPTH`, grayc/src/codegen/codegen.c:27. -/
def guardDepth : Nat := 64

/-- `strncmp(s, "map[", 4) == 0`. -/
def isMap (s : Name) : Bool := "map[".toList.isPrefixOf s

/-- The loop over the fields, grayc/src/codegen/codegen.c:513-516. -/
def needsAny (f : Name → Option Bool) : List Name → Option Bool
  | [] => some false
  | n :: ns =>
    match f n with
    | none => none
    | some true => some true
    | some false => needsAny f ns

/-- `type_needs_deep_copy`, grayc/src/codegen/codegen.c:499-519. `vis` is the stack of struct names being
visited. The C code skips the push when the stack holds 64 names but still decrements the counter
afterwards, which leaves the counter out of step (and finally negative); from there on nothing is
modelled and the result is `none`. The first argument counts the nested calls, of which there are at most
65, so 66 always suffices. -/
def needsF : Nat → Env → List Name → Name → Option Bool
  | 0, _, _, _ => none
  | fuel + 1, env, vis, s =>
    if s = [] then some false
    else if s.head? = some '[' then some true
    else if isMap s then some true
    else if s = "string".toList then some true
    else if s.head? = some '^' then some false
    else match find env s with
      | none => some false
      | some d =>
        if s ∈ vis then some false
        else if guardDepth ≤ vis.length then none
        else needsAny (needsF fuel env (s :: vis)) d.fields

/-- `type_needs_deep_copy` from the outside, where the stack of visited names is empty. -/
def needs (env : Env) (s : Name) : Option Bool := needsF 66 env [] s

/-- The C expression which the emitters print. -/
inductive Plan where
  /-- the value itself, a C assignment -/
  | same
  /-- `gray_string_new(arena, v.data, v.len)` -/
  | str
  /-- `gray_array_copy(arena, &v)` -/
  | arr
  /-- a new array whose elements are the copies, made by the given plan, of the elements of the source -/
  | arrEach (p : Plan)
  /-- `gray_map_copy(arena, &v)` -/
  | map
  /-- a new map filled in insertion order with the copies of the values; the flag says whether keys are
  copied with `gray_string_new` -/
  | mapEach (strKey : Bool) (p : Plan)
  /-- a struct, field by field -/
  | rcd (ps : List Plan)
  deriving Repr

/-- The element type cut out of an array type name, grayc/src/codegen/codegen.c:533-540: what is between
the first and the last character, at most 255 characters of it, up to the first comma. -/
def elemName (s : Name) : Name :=
  (((s.drop 1).take (min (s.length - 2) 255)).takeWhile (· ≠ ','))

/-- The key type cut out of a map type name, grayc/src/codegen/codegen.c:598-608, at most 127 characters. -/
def keyName (s : Name) : Name := ((s.drop 4).takeWhile (· ≠ ':')).take 127

/-- The value type cut out of a map type name, grayc/src/codegen/codegen.c:609-613, at most 255 characters.
The end of the C string bounds what a too large length can copy. -/
def valName (s : Name) : Name :=
  (((s.drop 4).dropWhile (· ≠ ':')).drop 1).take (min (s.length - 6 - (keyName s).length) 255)

/-- `emit_value_deep_copy`, `emit_array_deep_copy` and `emit_map_deep_copy`,
grayc/src/codegen/codegen.c:526-666 and 704-724, with the emitter for structs as a parameter. The first
argument counts nested calls; each cuts the type name, so the length of the name plus one suffices. -/
def planStep (env : Env) (onStruct : Name → Option Plan) : Nat → Name → Option Plan
  | 0, _ => none
  | fuel + 1, s =>
    match needs env s with
    | none => none
    | some false => some .same
    | some true =>
      if s = "string".toList then some .str
      else if s.head? = some '[' then
        if s.length < 3 ∨ s.getLast? ≠ some ']' then some .arr
        else match needs env (elemName s) with
          | none => none
          | some false => some .arr
          | some true => (planStep env onStruct fuel (elemName s)).map .arrEach
      else if isMap s then
        if s.length < 7 ∨ s.getLast? ≠ some ']' ∨ ':' ∉ s.drop 4 then some .map
        else match needs env (valName s) with
          | none => none
          | some false => some .map
          | some true =>
            (planStep env onStruct fuel (valName s)).map
              (.mapEach (keyName s = "string".toList))
      else onStruct s

/-- The loop over the fields of a struct, grayc/src/codegen/codegen.c:690-699. -/
def fieldPlans (env : Env) (onValue : Name → Option Plan) : List Name → Option (List Plan)
  | [] => some []
  | f :: fs =>
    match needs env f with
    | none => none
    | some false => (fieldPlans env onValue fs).map (Plan.same :: ·)
    | some true =>
      match onValue f with
      | none => none
      | some p => (fieldPlans env onValue fs).map (p :: ·)

/-- `emit_struct_deep_copy`, grayc/src/codegen/codegen.c:673-702, and the dispatcher. `vis` is the stack of
struct names being emitted: a struct met again is copied bitwise. As in `needsF`, more than 64 nested
structs are not modelled. The first argument counts nested structs; 66 suffices. -/
def planF : Nat → Env → List Name → Name → Option Plan
  | 0, _, _, _ => none
  | depth + 1, env, vis, s =>
    planStep env (fun n =>
      match find env n with
      | none => some .same
      | some d =>
        if n ∈ vis then some .same
        else if guardDepth ≤ vis.length then none
        else (fieldPlans env (planF depth env (n :: vis)) d.fields).map .rcd) (s.length + 1) s

/-- `emit_value_deep_copy` from the outside. -/
def plan (env : Env) (s : Name) : Option Plan := planF 66 env [] s

/-- The type name the built-in `copy` hands to the emitter, grayc/src/codegen/codegen.c:3871-3903. For an
array the name is put together again from the element type which `type_from_name` cut out
(grayc/src/typechecker/types.c:432-446, again up to the first comma). For maps
(types.c:449-472) and structs the name is the same. `snprintf` keeps 255 characters. -/
def copyName (s : Name) : Name :=
  if s.head? = some '[' ∧ 2 < s.length ∧ s.getLast? = some ']' then
    (('[' :: (((s.drop 1).take (s.length - 2)).takeWhile (· ≠ ',')) ++ [']']).take 255)
  else s.take 255

/-- What the built-in `copy` emits for an argument of the named type. -/
def copyPlan (env : Env) (s : Name) : Option Plan := plan env (copyName s)

/-! ## Memory -/

abbrev Byte := BitVec 8

/-- A C value. Scalars are numbers. `GrayString` and `GrayArray` hold the address of a block and a length;
`GrayMap` the address of its tables (its counters are part of the block here); a struct is its fields; a
pointer `^T` an address. -/
inductive Val where
  | num (n : Int)
  | str (a : Nat) (len : Nat)
  | arr (a : Nat) (len : Nat)
  | map (a : Nat)
  | rcd (fs : List Val)
  | ptr (a : Nat)
  deriving Repr

/-- A block in an arena: characters, array elements (as many as the capacity), or the entries of a map in
insertion order. The hash table inside a map is the subject of `Verif.Map`; here a map is its list of
keys and its list of values. -/
inductive Cell where
  | bytes (bs : List Byte)
  | vals (vs : List Val)
  | table (ks vs : List Val)
  deriving Repr

/-- Blocks by address. Arena memory is never given back while a value in it is in use, so blocks are only
added. -/
abbrev Heap := List Cell

/-- A new block: the new heap and the address. -/
def alloc (h : Heap) (c : Cell) : Heap × Nat := (h ++ [c], h.length)

/-- `GRAY_ARRAY_MIN_CAP`, grayc/src/runtime/array.h. -/
def minCap : Nat := 4

/-- The block of a new array, grayc/src/runtime/array.c:14-35: its elements, or four unused slots. -/
def fresh (vs : List Val) : List Val := if vs = [] then List.replicate minCap (.num 0) else vs

/-- `gray_string_new`, grayc/src/runtime/string.c: `len` characters and a NUL. -/
def strNew (h : Heap) (v : Val) : Option (Heap × Val) :=
  match v with
  | .str a len =>
    match h[a]? with
    | some (.bytes bs) =>
      if len ≤ bs.length then some (h ++ [.bytes (bs.take len ++ [0])], .str h.length len) else none
    | _ => none
  | _ => none

/-- The keys in `gray_map_copy`, grayc/src/runtime/map.c:305-314: string keys get new characters. -/
def copyKeys : Heap → List Val → Option (Heap × List Val)
  | h, [] => some (h, [])
  | h, k :: ks =>
    match k with
    | .str a len =>
      match strNew h (.str a len) with
      | none => none
      | some (h1, k1) =>
        match copyKeys h1 ks with
        | none => none
        | some (h2, ks2) => some (h2, k1 :: ks2)
    | k =>
      match copyKeys h ks with
      | none => none
      | some (h2, ks2) => some (h2, k :: ks2)

/-- A map key as a program sees it. -/
inductive Key where
  | num (n : Int)
  | str (bs : List Byte)
  deriving DecidableEq, Repr

/-- Does a stored key equal the given one? Numbers by value, strings by their characters
(grayc/src/runtime/map.c:93-109). Float keys are taken as numbers, leaving out that -0.0 and 0.0 are the same
key. -/
def keyIs (h : Heap) (k : Key) (v : Val) : Bool :=
  match k, v with
  | .num n, .num m => n = m
  | .str bs, .str a len =>
    match h[a]? with
    | some (.bytes cs) => decide (len = bs.length ∧ cs.take len = bs)
    | _ => false
  | _, _ => false

/-- The key a value stands for. -/
def keyOf (h : Heap) (v : Val) : Option Key :=
  match v with
  | .num n => some (.num n)
  | .str a len =>
    match h[a]? with
    | some (.bytes cs) => if len ≤ cs.length then some (.str (cs.take len)) else none
    | _ => none
  | _ => none

/-- `gray_map_set` on the two lists: overwrite the value of an equal key, or add an entry at the end
(grayc/src/runtime/map.c:165-214; see `Verif.Map` for the table). -/
def mapPut (h : Heap) (ks vs : List Val) (k : Key) (kv v : Val) : List Val × List Val :=
  match ks.findIdx? (keyIs h k) with
  | some i => (ks, vs.set i v)
  | none => (ks ++ [kv], vs ++ [v])

/-- Copy every element with the same copier. -/
def eachVal (f : Heap → Val → Option (Heap × Val)) : Heap → List Val → Option (Heap × List Val)
  | h, [] => some (h, [])
  | h, v :: vs =>
    match f h v with
    | none => none
    | some (h1, v1) =>
      match eachVal f h1 vs with
      | none => none
      | some (h2, vs2) => some (h2, v1 :: vs2)

/-- The loop emitted for maps, grayc/src/codegen/codegen.c:625-664: in insertion order, copy the value, copy
a string key, and insert both. The last two arguments are the entries inserted so far. -/
def eachEntry (f : Heap → Val → Option (Heap × Val)) (strKey : Bool) :
    Heap → List Val → List Val → List Val → List Val → Option (Heap × List Val × List Val)
  | h, [], [], ks2, vs2 => some (h, ks2, vs2)
  | h, k :: ks, v :: vs, ks2, vs2 =>
    match f h v with
    | none => none
    | some (h1, v1) =>
      match (if strKey then strNew h1 k else some (h1, k)) with
      | none => none
      | some (h2, k1) =>
        match keyOf h2 k1 with
        | none => none
        | some key =>
          let p := mapPut h2 ks2 vs2 key k1 v1
          eachEntry f strKey h2 ks vs p.1 p.2
  | _, _, _, _, _ => none

mutual
/-- What the emitted expression does. Simplification: the block of a new outer array or map is added after
those of its elements, not before; nothing depends on the numbers of the addresses. `none` means the value
does not have the type for which the plan was made. -/
def run : Plan → Heap → Val → Option (Heap × Val)
  | .same, h, v => some (h, v)
  | .str, h, v => strNew h v
  | .arr, h, v =>
    match v with
    | .arr a len =>
      match h[a]? with
      | some (.vals vs) => some (h ++ [.vals (fresh (vs.take len))], .arr h.length len)
      | _ => none
    | _ => none
  | .arrEach p, h, v =>
    match v with
    | .arr a len =>
      match h[a]? with
      | some (.vals vs) =>
        match eachVal (run p) h (vs.take len) with
        | none => none
        | some (h1, vs1) => some (h1 ++ [.vals (fresh vs1)], .arr h1.length len)
      | _ => none
    | _ => none
  | .map, h, v =>
    match v with
    | .map a =>
      match h[a]? with
      | some (.table ks vs) =>
        match copyKeys h ks with
        | none => none
        | some (h1, ks1) => some (h1 ++ [.table ks1 vs], .map h1.length)
      | _ => none
    | _ => none
  | .mapEach strKey p, h, v =>
    match v with
    | .map a =>
      match h[a]? with
      | some (.table ks vs) =>
        match eachEntry (run p) strKey h ks vs [] [] with
        | none => none
        | some (h1, ks1, vs1) => some (h1 ++ [.table ks1 vs1], .map h1.length)
      | _ => none
    | _ => none
  | .rcd ps, h, v =>
    match v with
    | .rcd vs =>
      match runFields ps h vs with
      | none => none
      | some (h1, vs1) => some (h1, .rcd vs1)
    | _ => none
/-- The fields of a struct. -/
def runFields : List Plan → Heap → List Val → Option (Heap × List Val)
  | [], h, [] => some (h, [])
  | p :: ps, h, v :: vs =>
    match run p h v with
    | none => none
    | some (h1, v1) =>
      match runFields ps h1 vs with
      | none => none
      | some (h2, vs2) => some (h2, v1 :: vs2)
  | _, _, _ => none
end

/-! ## Contents and later operations -/

/-- The contents of a value, as a program sees them: addresses of blocks do not show, except that a pointer
is the address it holds. -/
inductive Tree where
  | num (n : Int)
  | str (bs : List Byte)
  | arr (ts : List Tree)
  | map (ks : List Key) (ts : List Tree)
  | rcd (ts : List Tree)
  | ptr (a : Nat)
  deriving Repr

/-- A new key in memory. -/
def makeKey (h : Heap) : Key → Heap × Val
  | .num n => (h, .num n)
  | .str bs => (h ++ [.bytes (bs ++ [0])], .str h.length bs.length)

/-- New keys in memory. -/
def makeKeys : Heap → List Key → Heap × List Val
  | h, [] => (h, [])
  | h, k :: ks =>
    let p := makeKey h k
    let q := makeKeys p.1 ks
    (q.1, p.2 :: q.2)

mutual
/-- A new value with the given contents: what a literal or any other freshly computed value is when it is
stored into a container. -/
def make : Heap → Tree → Heap × Val
  | h, .num n => (h, .num n)
  | h, .str bs => (h ++ [.bytes (bs ++ [0])], .str h.length bs.length)
  | h, .arr ts =>
    let p := makeL h ts
    (p.1 ++ [.vals (fresh p.2)], .arr p.1.length ts.length)
  | h, .map ks ts =>
    let q := makeKeys h ks
    let p := makeL q.1 ts
    (p.1 ++ [.table q.2 p.2], .map p.1.length)
  | h, .rcd ts =>
    let p := makeL h ts
    (p.1, .rcd p.2)
  | h, .ptr a => (h, .ptr a)
/-- New values with the given contents. -/
def makeL : Heap → List Tree → Heap × List Val
  | h, [] => (h, [])
  | h, t :: ts =>
    let p := make h t
    let q := makeL p.1 ts
    (q.1, p.2 :: q.2)
end

/-- One step into a container: an element, the value of a key, a field. -/
inductive Step where
  | idx (i : Nat)
  | key (k : Key)
  | field (j : Nat)
  deriving Repr

/-- What is done at the place reached. -/
inductive Act where
  /-- assignment of a new value -/
  | set (t : Tree)
  /-- `append` -/
  | push (t : Tree)
  /-- `remove_last` -/
  | pop
  /-- `remove_at` -/
  | removeAt (i : Nat)
  /-- `clear` of an array or of a map -/
  | clear
  /-- setting the value of a key; the flag says whether the map decides to move to larger tables -/
  | put (grow : Bool) (k : Key) (t : Tree)
  /-- removing a key -/
  | del (k : Key)
  deriving Repr

/-- An operation of the program on a variable. -/
structure Op where
  path : List Step
  act : Act
  deriving Repr

/-- The action at the place: new heap and new value of the place.
* assignment: codegen.c:7990-8120;
* `gray_array_push`, grayc/src/runtime/array.c:52-73: in place while there is room, otherwise a block of
  twice the size;
* `gray_arrays_remove_last`, `gray_arrays_remove_at` (shifts down in place), `gray_arrays_clear`:
  grayc/src/stdlib/arrays.c;
* `gray_map_set`, `gray_map_remove`, `gray_map_clear`: map.c. When the tables are enlarged the entries move
  to new blocks. -/
def doAct (h : Heap) (v : Val) : Act → Option (Heap × Val)
  | .set t => some (make h t)
  | .push t =>
    match v with
    | .arr a len =>
      let p := make h t
      match p.1[a]? with
      | some (.vals vs) =>
        if len < vs.length then some (p.1.set a (.vals (vs.set len p.2)), .arr a (len + 1))
        else
          let cap := if vs.length < minCap then minCap else vs.length * 2
          some (p.1 ++ [.vals (vs.take len ++ p.2 :: List.replicate (cap - len - 1) (.num 0))],
            .arr p.1.length (len + 1))
      | _ => none
    | _ => none
  | .pop =>
    match v with
    | .arr a len => if 0 < len then some (h, .arr a (len - 1)) else none
    | _ => none
  | .removeAt i =>
    match v with
    | .arr a len =>
      match h[a]? with
      | some (.vals vs) =>
        if i < len then
          some (h.set a (.vals ((vs.take len).eraseIdx i ++ vs.drop (len - 1))), .arr a (len - 1))
        else none
      | _ => none
    | _ => none
  | .clear =>
    match v with
    | .arr a _ => some (h, .arr a 0)
    | .map a => some (h.set a (.table [] []), .map a)
    | _ => none
  | .put grow k t =>
    match v with
    | .map a =>
      let q := makeKey h k
      let p := make q.1 t
      match p.1[a]? with
      | some (.table ks vs) =>
        let r := mapPut p.1 ks vs k q.2 p.2
        if grow then some (p.1 ++ [.table r.1 r.2], .map p.1.length)
        else some (p.1.set a (.table r.1 r.2), .map a)
      | _ => none
    | _ => none
  | .del k =>
    match v with
    | .map a =>
      match h[a]? with
      | some (.table ks vs) =>
        match ks.findIdx? (keyIs h k) with
        | some i => some (h.set a (.table (ks.eraseIdx i) (vs.eraseIdx i)), .map a)
        | none => some (h, .map a)
      | _ => none
    | _ => none

/-- An operation on the variable holding `v`: go to the place through the blocks, act there, and store the
new value of the place where the old one was (codegen emits `GRAY_ARRAY_SET`, `gray_array_get_ptr`,
`gray_map_get` and member accesses for the path, grayc/src/codegen/codegen.c:7610-7990). `none` is a
panic (index out of range, missing key) or a type error. -/
def upd : List Step → Act → Heap → Val → Option (Heap × Val)
  | [], act, h, v => doAct h v act
  | .idx i :: path, act, h, v =>
    match v with
    | .arr a len =>
      match h[a]? with
      | some (.vals vs) =>
        if i < len then
          match vs[i]? with
          | some e =>
            match upd path act h e with
            | some (h1, e1) =>
              match h1[a]? with
              | some (.vals vs1) => some (h1.set a (.vals (vs1.set i e1)), .arr a len)
              | _ => none
            | none => none
          | none => none
        else none
      | _ => none
    | _ => none
  | .key k :: path, act, h, v =>
    match v with
    | .map a =>
      match h[a]? with
      | some (.table ks vs) =>
        match ks.findIdx? (keyIs h k) with
        | some i =>
          match vs[i]? with
          | some e =>
            match upd path act h e with
            | some (h1, e1) =>
              match h1[a]? with
              | some (.table ks1 vs1) => some (h1.set a (.table ks1 (vs1.set i e1)), .map a)
              | _ => none
            | none => none
          | none => none
        | none => none
      | _ => none
    | _ => none
  | .field j :: path, act, h, v =>
    match v with
    | .rcd vs =>
      match vs[j]? with
      | some e =>
        match upd path act h e with
        | some (h1, e1) => some (h1, .rcd (vs.set j e1))
        | none => none
      | none => none
    | _ => none

/-- A program that works on two variables: `true` marks operations on the first, `false` on the second. -/
def exec : List (Bool × Op) → Heap → Val → Val → Option (Heap × Val × Val)
  | [], h, l, r => some (h, l, r)
  | (true, op) :: ops, h, l, r =>
    match upd op.path op.act h l with
    | some (h1, l1) => exec ops h1 l1 r
    | none => none
  | (false, op) :: ops, h, l, r =>
    match upd op.path op.act h r with
    | some (h1, r1) => exec ops h1 l r1
    | none => none

end Verif.Copy

/-!
# Arguments of a call: names, defaults, and the scope they are evaluated in

`typechecker_resolve_named_arguments` (grayc/src/typechecker/typechecker.c:1371-1481) puts named arguments in the
place of their parameters and fills gaps with the default values. The count is checked after it (4517-4545), and then
each argument is looked at (4668-4700). `emit_call_expression` (grayc/src/codegen/codegen.c:6826-6986) writes the
arguments, and the defaults of the parameters that are left out.

Simplifications: values are integers; expressions are numbers, variables and sums, so they have no side effects and
always end; an argument for an `&` parameter is taken as its value; parameters of a type `<?>` are left out; the
function is a known one, called by its name. `none` as the value of a variable says that it is not declared, or not
initialized.
-/

namespace Verif.CallArgs

abbrev Name := String

inductive Exp where
  | num (n : Int)
  | var (x : Name)
  | add (a b : Exp)
  deriving DecidableEq, Repr

/-- The values of the variables in scope. -/
abbrev Env := Name → Option Int

def set (ρ : Env) (x : Name) (v : Option Int) : Env := fun y => if y = x then v else ρ y

def eval (ρ : Env) : Exp → Option Int
  | .num n => some n
  | .var x => ρ x
  | .add a b => do return (← eval ρ a) + (← eval ρ b)

structure Param where
  name : Name
  default : Option Exp := none
  mutable : Bool := false
  deriving DecidableEq, Repr

/-- An argument as it is written, with its name if it has one. -/
structure Arg where
  name : Option Name := none
  value : Exp
  deriving DecidableEq, Repr

/-- What the compiler does with a call. -/
inductive Checked where
  | error (code : String)
  | crash
  | args (l : List Exp)
  deriving DecidableEq, Repr

/-- Lines 1387-1400: no argument without a name after one with a name. -/
def ordered : List Arg → Bool
  | [] => true
  | a :: as => if a.name.isSome then as.all (·.name.isSome) else ordered as

/-- Lines 1430-1436. -/
def slotOf (ps : List Param) (x : Name) : Option Nat := ps.findIdx? fun p => p.name = x

/-- Lines 1427-1459: the named arguments. -/
def place (ps : List Param) : List (Option Exp) → List Arg → Except String (List (Option Exp))
  | slots, [] => .ok slots
  | slots, a :: as =>
    match slotOf ps (a.name.getD "") with
    | none => .error "E5031"
    | some i =>
      if (slots[i]?.join).isSome then .error "E5032"
      else place ps (slots.set i (some a.value)) as

/-- Lines 1463-1467: the number of slots up to the last that is filled. -/
def filled : List (Option Exp) → Nat
  | [] => 0
  | s :: ss => if 0 < filled ss then filled ss + 1 else if s.isSome then 1 else 0

/-- Lines 1471-1475. -/
def fillGap (p : Param) (s : Option Exp) : Option Exp := if s.isSome then s else p.default

/-- `typechecker_resolve_named_arguments`. The arguments without a name come first, after the check of the order. -/
def resolve (ps : List Param) (as : List Arg) : Except String (List (Option Exp)) :=
  if as.any (·.name.isSome) then
    if !ordered as then .error "E5033"
    else
      let pos := as.takeWhile (·.name.isNone)
      let slots := (pos.map fun a => some a.value).take ps.length ++ List.replicate (ps.length - pos.length) none
      match place ps slots (as.drop pos.length) with
      | .error e => .error e
      | .ok slots => .ok ((List.zipWith fillGap ps slots).take (max (filled slots) pos.length))
  else .ok (as.map fun a => some a.value)

/-- Lines 4522-4545. -/
def minArgs (ps : List Param) : Nat := (ps.filter (·.default.isNone)).length

/-- The call as a whole. A slot that is still empty is a null pointer; its kind is looked at (line 4693), since the type
of a null pointer is unknown. -/
def check (ps : List Param) (as : List Arg) : Checked :=
  match resolve ps as with
  | .error e => .error e
  | .ok slots =>
    if slots.any (·.isNone) then .crash
    else if slots.length < minArgs ps ∨ ps.length < slots.length then .error "E5008"
    else .args (slots.filterMap id)

/-- Lines 6838-6846. -/
def usesDefaults (ps : List Param) (n : Nat) : Bool := (ps.drop n).any (·.default.isSome)

/-- Lines 6847-6852. -/
def anyMut (ps : List Param) : Bool := ps.any (·.mutable)

/-- Lines 6884-6894: `T0 a0 = arg0; T1 a1 = arg1; …`. In C a name is in scope in its own initializer, and has no value
there. -/
def bindings (ρ : Env) : List (Param × Exp) → Env
  | [] => ρ
  | (p, e) :: r => bindings (set ρ p.name (eval (set ρ p.name none) e)) r

/-- Lines 6973-6985: a default value is written where the argument would be, and `0` without one. -/
def defaultValue (ρ : Env) (p : Param) : Option Int :=
  match p.default with
  | some d => eval ρ d
  | none => some 0

/-- The values that the function receives, as `emit_call_expression` writes the call; `ρ` are the variables where the
call stands. -/
def emitted (ρ : Env) (ps : List Param) (as : List Exp) : List (Option Int) :=
  if usesDefaults ps as.length && !anyMut ps then
    let ρ' := bindings ρ (ps.zip as)
    (ps.zip as).map (fun q => ρ' q.1.name) ++ (ps.drop as.length).map (defaultValue ρ')
  else as.map (eval ρ) ++ (ps.drop as.length).map (defaultValue ρ)

end Verif.CallArgs

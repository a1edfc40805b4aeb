/-
Outcomes of modelled C code.

`panic code` stands for a call of `gray_panic_code`/`gray_panic_code_at`
(/repo/grayc/src/runtime/runtime.c, which prints the code and exits), and `ub` for an
operation whose behaviour the C standard leaves undefined (signed overflow, access
outside an allocated object).
-/
namespace Verif

/-- Result of running a piece of modelled C code. -/
inductive Outcome (α : Type) where
  | ok (a : α)
  | panic (code : String)
  | ub
  deriving DecidableEq, Repr

namespace Outcome

/-- Sequencing: a panic or an undefined step ends the computation. -/
def bind {α β : Type} (x : Outcome α) (f : α → Outcome β) : Outcome β :=
  match x with
  | .ok a => f a
  | .panic c => .panic c
  | .ub => .ub

instance : Monad Outcome where
  pure := .ok
  bind := bind

@[simp] theorem pure_eq {α : Type} (a : α) : (pure a : Outcome α) = .ok a := rfl
@[simp] theorem bind_ok {α β : Type} (a : α) (f : α → Outcome β) :
    ((Outcome.ok a) >>= f) = f a := rfl
@[simp] theorem bind_panic {α β : Type} (c : String) (f : α → Outcome β) :
    ((Outcome.panic c : Outcome α) >>= f) = .panic c := rfl
@[simp] theorem bind_ub {α β : Type} (f : α → Outcome β) :
    ((Outcome.ub : Outcome α) >>= f) = .ub := rfl

/-- The run ended in a panic. -/
def isPanic {α : Type} : Outcome α → Bool
  | .panic _ => true
  | _ => false

/-- The run ended normally. -/
def isOk {α : Type} : Outcome α → Bool
  | .ok _ => true
  | _ => false

end Outcome
end Verif

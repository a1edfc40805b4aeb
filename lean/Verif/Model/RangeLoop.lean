import Verif.Model.IntOps
/-
`for i in range(...)` loops and `x in range(...)` tests.
Source: /repo/grayc/src/codegen/codegen.c (emit_for_statement 8503-8590, membership 1851-1882).
Simplifications: the loop body terminates normally each time, without break/return, and does not
change the values of the end and step expressions (the loop variable itself is immutable). The end
expression has an integer type of at most 64 bits; start and step are converted to `int64_t`.
-/
namespace Verif.RangeLoop
open Verif.IntOps

/-- The step as written: absent, an integer literal, a prefix minus applied to an expression of
value `x`, or any other expression of value `s`. -/
inductive Step where
  | none
  | lit (v : Int)
  | neg (x : Int)
  | var (s : Int)
  deriving DecidableEq, Repr

/-- The loop test in C: `i < end` or `i > end`, codegen.c:8552-8571. In the variable-step form the
end is first stored in an `int64_t`. -/
def test (st : Step) (te : IntTy) (e i : Int) : Bool :=
  match st with
  | .none => emitCmp .lt .int te i e
  | .lit v => emitCmp (if v < 0 then .gt else .lt) .int te i e
  | .neg _ => emitCmp .gt .int te i e
  | .var s => if s > 0 then i < toI64 e else i > toI64 e

/-- The loop increment: `i++` (signed overflow undefined), or `gray_add_check(i, step)`. -/
def next (st : Step) (i : Int) : Outcome Int :=
  match st with
  | .none => if i + 1 > maxI64 then .ub else .ok (i + 1)
  | .lit v => check .add i v
  | .neg x => (negCheck x).bind (check .add i)
  | .var s => check .add i s

/-- A panic before the loop starts (P0090), codegen.c:8549-8551 and 8559-8563. -/
def zeroStep : Step → Bool
  | .lit v => v == 0
  | .var s => s == 0
  | _ => false

/-- `Run st te e i vs o`: entering the loop test with `i`, the body is executed with the values `vs`
in order and the loop ends with outcome `o`. -/
inductive Run (st : Step) (te : IntTy) (e : Int) : Int → List Int → Outcome Unit → Prop
  | stop {i} : test st te e i = false → Run st te e i [] (.ok ())
  | step {i j vs o} : test st te e i = true → next st i = .ok j → Run st te e j vs o →
      Run st te e i (i :: vs) o
  | panic {i c} : test st te e i = true → next st i = .panic c → Run st te e i [i] (.panic c)
  | ub {i} : test st te e i = true → next st i = .ub → Run st te e i [i] .ub

/-- The whole statement. -/
def Exec (st : Step) (te : IntTy) (start e : Int) (vs : List Int) (o : Outcome Unit) : Prop :=
  if zeroStep st then vs = [] ∧ o = .panic "P0090" else Run st te e start vs o

/-- `x in range(start, end[, step])` on `int` operands, codegen.c:1851-1882:
`x >= start && x < end && (x - start) % step == 0`, with plain C subtraction and remainder. -/
def inRange (start e : Int) (step : Option Int) (x : Int) : Outcome Bool :=
  if x ≥ start ∧ x < e then
    match step with
    | none => .ok true
    | some s =>
      let d := x - start
      if d < minI64 ∨ d > maxI64 ∨ s = 0 ∨ (d = minI64 ∧ s = -1) then .ub else .ok (d.tmod s == 0)
  else .ok false

end Verif.RangeLoop

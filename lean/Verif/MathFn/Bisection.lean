import Mathlib.Algebra.Order.Field.Basic
set_option autoImplicit false
set_option linter.unusedVariables false

/-!
# Model of `math::bisection` (include/math.hpp:93-112)

`double` is an ordered field `K` (no rounding) extended with NaN as the function value: a function value is `Option K`, `none`
being NaN. Any comparison with NaN is false.
-/

namespace Hexed.MathFn
variable {K : Type} [Field K] [LinearOrder K]

/-- Product of two values; NaN if either is NaN. -/
def nanMul : Option K → Option K → Option K
  | some a, some b => some (a * b)
  | _, _ => none
/-- `x > 0`; false for NaN. -/
def gtZero : Option K → Bool
  | some a => decide (a > 0)
  | none => false
/-- `x <= 0`; false for NaN. -/
def leZero : Option K → Bool
  | some a => decide (a ≤ 0)
  | none => false

/-- `bounds` and `func_bounds`. -/
structure Bracket (K : Type) where
  b0 : K
  b1 : K
  f0 : Option K
  f1 : Option K

/-- `i_repl`, math.hpp:103-106: the end to be replaced. -/
def iRepl (s : Bracket K) (mid_func : Option K) : Bool :=
  let r := leZero (nanMul mid_func s.f0)
  let r := if s.f0.isNone then false else r
  if s.f1.isNone then true else r

/-- One pass of the loop body, math.hpp:101-108: new bracket and midpoint. -/
def bisectStep (func : K → Option K) (s : Bracket K) : Bracket K × K :=
  let midpoint := (s.b0 + s.b1) / 2
  let mid_func := func midpoint
  (if iRepl s mid_func then { s with b1 := midpoint, f1 := mid_func } else { s with b0 := midpoint, f0 := mid_func }, midpoint)

/-- Outcome: `running` = out of fuel (the loop has not ended after that many passes). -/
inductive Bisect (K : Type)
  | ok (root : K)
  | throws
  | running

/-- The do-while loop, math.hpp:100-110, for at most `fuel` passes. -/
def bisectLoop (func : K → Option K) (atol : K) : Nat → Bracket K → Bisect K
  | 0, _ => .running
  | n + 1, s =>
    let r := bisectStep func s
    if r.1.b1 - r.1.b0 > atol then bisectLoop func atol n r.1 else .ok r.2

/-- `math::bisection`, math.hpp:93-112, with its two assertions. -/
def bisection (fuel : Nat) (func : K → Option K) (b0 b1 atol : K) : Bisect K :=
  let s : Bracket K := ⟨b0, b1, func b0, func b1⟩
  if gtZero (nanMul s.f0 s.f1) then .throws
  else if s.f0.isNone && s.f1.isNone then .throws
  else bisectLoop func atol fuel s

end Hexed.MathFn

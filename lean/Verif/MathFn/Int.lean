set_option autoImplicit false
set_option linter.unusedVariables false

/-!
# Model of `math::pow` and `math::log` (include/math.hpp)
-/

namespace Hexed.MathFn

/-- First loop of `pow`, math.hpp:33: `for (int i = 0; i < exponent; ++i) result *= base;`, from a given `i`. -/
def powUp {K : Type} [Mul K] (base : K) (exponent i : Int) (result : K) : K :=
  if h : i < exponent then powUp base exponent (i + 1) (result * base) else result
termination_by (exponent - i).toNat
decreasing_by omega

/-- Second loop of `pow`, math.hpp:34: `for (int i = 0; i > exponent; --i) result /= base;` -/
def powDown {K : Type} [Div K] (base : K) (exponent i : Int) (result : K) : K :=
  if h : exponent < i then powDown base exponent (i - 1) (result / base) else result
termination_by (i - exponent).toNat
decreasing_by omega

/-- `math::pow`, math.hpp:29-36, for a number type without overflow or rounding. -/
def pow {K : Type} [Mul K] [Div K] [One K] (base : K) (exponent : Int) : K :=
  powDown base exponent 0 (powUp base exponent 0 1)

/-- The range of `int` (32 bits). -/
def intMax : Int := 2147483647
def intMin : Int := -2147483648
/-- Product of two `int`s; overflow is undefined (`none`). -/
def mulInt (a b : Int) : Option Int := if intMin ≤ a * b ∧ a * b ≤ intMax then some (a * b) else none

/-- The first loop of `pow` for `number_t = int` with overflow. -/
def powUpInt (base exponent i result : Int) : Option Int :=
  if h : i < exponent then
    match mulInt result base with
    | none => none
    | some r => powUpInt base exponent (i + 1) r
  else some result
termination_by (exponent - i).toNat
decreasing_by omega

/-- `math::pow<int>`, math.hpp:29-36, for a nonnegative exponent (the second loop then does nothing). -/
def powInt (base exponent : Int) : Option Int := powUpInt base exponent 0 1

/-- The loop of `log`, math.hpp:47: `for (int compare = 1; compare < arg; compare *= base) ++result;` with overflow (`none`).
It is only entered with `base ≥ 2` and `compare ≥ 1`; other arguments are given `none`. -/
def logLoop (base arg compare result : Int) : Option Int :=
  if h : compare < arg then
    if hb : 2 ≤ base ∧ 1 ≤ compare then
      if compare * base ≤ intMax then logLoop base arg (compare * base) (result + 1) else none
    else none
  else some result
termination_by (arg - compare).toNat
decreasing_by
  have : compare * 2 ≤ compare * base := Int.mul_le_mul_of_nonneg_left hb.1 (by omega)
  omega

/-- `math::log`, math.hpp:43-49. -/
def log (base arg : Int) : Option Int := if base ≤ 1 then some (-1) else logLoop base arg 1 0

end Hexed.MathFn

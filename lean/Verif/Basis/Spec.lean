import Mathlib.Algebra.Polynomial.Derivative
import Mathlib.Algebra.Polynomial.Eval.Degree
import Verif.Basis.Model
set_option autoImplicit false
set_option linter.unusedVariables false

/-!
# What a basis is supposed to do
-/

namespace Hexed.Basis
open Polynomial

variable {K : Type} [Field K]

/-- The nodes are different points. -/
def Nodes.Distinct (b : Nodes K) : Prop := ∀ i < b.n, ∀ j < b.n, b.node i = b.node j → i = j

/-- The quadrature rule integrates polynomials of degree at most `deg` exactly over [0, 1] (every such polynomial is the derivative of a
polynomial `p` of degree at most `deg + 1`, and its integral is `p(1) - p(0)`), and no weight is zero. -/
structure Nodes.Exact (b : Nodes K) (deg : Nat) : Prop where
  distinct : b.Distinct
  weight_ne : ∀ i < b.n, b.weight i ≠ 0
  integral : ∀ p : K[X], p.natDegree ≤ deg + 1 → ∑ i ∈ Finset.range b.n, b.weight i * (Polynomial.derivative p).eval (b.node i) = p.eval 1 - p.eval 0

end Hexed.Basis

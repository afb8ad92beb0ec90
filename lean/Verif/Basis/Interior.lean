import Verif.Basis.Props
set_option autoImplicit false
set_option linter.unusedVariables false

/-!
# The differentiation operator without boundary values (C45)
-/

namespace Hexed.Basis
open Polynomial

variable {K : Type} [Field K]

/-- The derivative that is computed from interior values alone is exact on polynomials of degree below `row_size`, and the boundary values that the first of the two steps hands out are those of the polynomial. -/
theorem deriv_interior_exact {b : Nodes K} (h : b.Distinct) {dm bd : Nat → Nat → K} (m : Matrices b dm bd) (p : K[X]) (hp : p.degree < b.n) :
    (∀ i < b.n, derivInterior b.n dm (fun j => p.eval (b.node j)) i = (Polynomial.derivative p).eval (b.node i)) ∧
    ∀ s < 2, (interiorTerm b.n b.weight dm bd (fun j => p.eval (b.node j))).2 s = p.eval (s : K) := by
  refine ⟨fun i hi => ?_, fun s hs => ?_⟩
  · rw [derivInterior, range_sum, ← derivative_exact h p hp hi]
    refine Finset.sum_congr rfl fun j hj => ?_
    rw [m.diff_eq hi (Finset.mem_range.1 hj)]
  · exact m.extrap h hs p hp

/-- The nodes of the two point Gauss-Lobatto rule, the derivative and the boundary values of `3 + 5 x`. -/
example : (⟨2, fun i => (i : ℚ), fun _ => 1 / 2⟩ : Nodes ℚ).Distinct ∧
    Matrices (⟨2, fun i => (i : ℚ), fun _ => 1 / 2⟩ : Nodes ℚ) (fun _ j => if j = 0 then -1 else 1) (fun s j => if s = j then 1 else 0) ∧
    derivInterior 2 (fun _ j => if j = 0 then (-1 : ℚ) else 1) (fun j => 3 + 5 * j) 1 = 5 := by
  refine ⟨?_, ⟨by decide +kernel, by decide +kernel⟩, by decide +kernel⟩
  intro i hi j hj e
  simp only at e
  exact_mod_cast e

end Hexed.Basis

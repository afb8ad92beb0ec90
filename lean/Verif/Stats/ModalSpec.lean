import Verif.Stats.Spec
set_option autoImplicit false
set_option linter.unusedVariables false

/-! # Legendre modes in several dimensions -/

namespace Hexed.Stats
open Hexed.Tensor Hexed.Basis

/-- The weight of the quadrature point with coordinates `c`. -/
def wgt (b : Nodes ℝ) {nd : Nat} (c : Fin nd → Fin b.n) : ℝ := ∏ k, b.weight (c k)

/-- The product of normalized Legendre polynomials of degrees `d` in the variables, at the quadrature point `c`. -/
noncomputable def leg (b : Nodes ℝ) {nd : Nat} (d c : Fin nd → Fin b.n) : ℝ := ∏ k, ortho b (d k) (c k)

/-- The Legendre mode of degrees `d` of values at the quadrature points: the inner product with the Legendre polynomial. -/
noncomputable def mode (b : Nodes ℝ) {nd : Nat} (v : (Fin nd → Fin b.n) → ℝ) (d : Fin nd → Fin b.n) : ℝ := ∑ c, wgt b c * leg b d c * v c

/-- The quadrature norm. -/
noncomputable def norm2 (b : Nodes ℝ) {nd : Nat} (v : (Fin nd → Fin b.n) → ℝ) : ℝ := √(∑ c, wgt b c * v c ^ 2)

/-- The mean over the unit cube. -/
noncomputable def mean (b : Nodes ℝ) {nd : Nat} (v : (Fin nd → Fin b.n) → ℝ) : ℝ := ∑ c, wgt b c * v c

/-- Total degree of a mode. -/
def total {nd n : Nat} (d : Fin nd → Fin n) : Nat := ∑ k, (d k : Nat)

/-- Values as a function of coordinates. -/
def at' {nd n : Nat} (v : Nat → ℝ) (c : Fin nd → Fin n) : ℝ := v (idx c)

end Hexed.Stats

import Verif.Stats.Model
import Verif.Tensor.Props
import Mathlib.MeasureTheory.Integral.Bochner.Set
import Mathlib.MeasureTheory.Function.Jacobian
import Mathlib.Algebra.MvPolynomial.Degrees
set_option autoImplicit false
set_option linter.unusedVariables false

/-! # What integrals and element statistics should be -/

namespace Hexed.Stats
open Hexed.Tensor Hexed.Basis MeasureTheory

/-- The quadrature point with coordinates `c` of the unit cube. -/
def point (b : Nodes ℝ) {nd : Nat} (c : Fin nd → Fin b.n) : Fin nd → ℝ := fun k => b.node (c k)

/-- A function that is, on the unit cube, a polynomial of degree at most `deg` in each variable. -/
def PolyOn {nd : Nat} (deg : Nat) (f : (Fin nd → ℝ) → ℝ) : Prop :=
  ∃ p : MvPolynomial (Fin nd) ℝ, (∀ i, p.degreeOf i ≤ deg) ∧ ∀ x ∈ Set.Icc (0 : Fin nd → ℝ) 1, f x = MvPolynomial.eval x p

/-- The element is the image of the unit cube under the mapping `φ`, which is differentiable, one-to-one and keeps the orientation.
The element's size and Jacobian determinants are those of the mapping at the quadrature points. -/
structure Shape (b : Nodes ℝ) {nd : Nat} (el : Elem) (φ : (Fin nd → ℝ) → Fin nd → ℝ) (φ' : (Fin nd → ℝ) → (Fin nd → ℝ) →L[ℝ] (Fin nd → ℝ)) : Prop where
  deriv : ∀ x ∈ Set.Icc (0 : Fin nd → ℝ) 1, HasFDerivWithinAt φ (φ' x) (Set.Icc 0 1) x
  inj : Set.InjOn φ (Set.Icc 0 1)
  pos : ∀ x ∈ Set.Icc (0 : Fin nd → ℝ) 1, 0 ≤ (φ' x).det
  det : ∀ c : Fin nd → Fin b.n, el.size ^ nd * el.det (idx c) = (φ' (point b c)).det

/-- A quadrature rule with nodes in the unit interval and positive weights that is exact to degree `deg`. -/
structure Rule (b : Nodes ℝ) (deg : Nat) : Prop where
  exact : b.Exact deg
  pos : ∀ i < b.n, 0 < b.weight i
  unit : ∀ i < b.n, 0 ≤ b.node i ∧ b.node i ≤ 1
  some : 0 < b.n

/-- `x` with coordinate `i` replaced by `t`. -/
def upd {nd : Nat} {A : Type} (x : Fin nd → A) (i : Fin nd) (t : A) : Fin nd → A := Function.update x i t

end Hexed.Stats

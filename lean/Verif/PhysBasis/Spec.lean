import Verif.PhysBasis.Model
import Mathlib.Algebra.MvPolynomial.Degrees
set_option autoImplicit false
set_option linter.unusedVariables false

/-!
# What the polynomial basis in physical space is for
-/

namespace Hexed.PhysBasis

open Finset

/-- Values at the points of a polynomial in the physical coordinates whose total degree is less than `row_size`. -/
def IsPoly (n_dim row_size : Nat) (pos : List ℝ) (f : Nat → ℝ) : Prop :=
  ∃ P : MvPolynomial (Fin n_dim) ℝ, P.totalDegree < row_size ∧ ∀ q < row_size ^ n_dim, f q = MvPolynomial.eval (fun d : Fin n_dim => pos.getD (d * row_size ^ n_dim + q) 0) P

/-- The points are not all in a plane of constant coordinate. -/
def Spread (n_dim row_size : Nat) (pos : List ℝ) : Prop := ∀ d < n_dim, ∃ q < row_size ^ n_dim, ∃ q' < row_size ^ n_dim, pos.getD (d * row_size ^ n_dim + q) 0 ≠ pos.getD (d * row_size ^ n_dim + q') 0

/-- A solver that minimizes the residual: its residual is orthogonal to the columns. -/
def LeastSquares (solve : Nat → Nat → (Nat → Nat → ℝ) → (Nat → ℝ) → Nat → ℝ) : Prop :=
  ∀ n m A b, ∀ j < m, ∑ i ∈ range n, A i j * (∑ k ∈ range m, A i k * solve n m A b k - b i) = 0

end Hexed.PhysBasis

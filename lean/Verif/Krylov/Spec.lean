import Verif.Krylov.Model

set_option autoImplicit false
set_option linter.unusedVariables false

/-!
# What solving a linear equation means
-/

namespace Hexed.Krylov

variable {V : Type} [NormedAddCommGroup V] [InnerProductSpace ℝ V]

/-- What is missing for `x` to solve `A x = b`. -/
def residual (A : V →ₗ[ℝ] V) (b x : V) : V := b - A x

/-- The vectors `r`, `A r`, ..., `A^(k-1) r`. -/
def krylovVec (A : V →ₗ[ℝ] V) (r : V) (k : ℕ) (i : Fin k) : V := (A ^ (i : ℕ)) r

/-- The space they span. -/
def krylov (A : V →ₗ[ℝ] V) (r : V) (k : ℕ) : Submodule ℝ V :=
  Submodule.span ℝ (Set.range (krylovVec A r k))

/-- A routine that does solve least squares problems: no other coefficients leave a smaller sum of
squares. -/
def LeastSquares (solve : Solve) : Prop :=
  ∀ (k : ℕ) (h : ℕ → ℕ → ℝ) (res : ℝ) (c : ℕ → ℝ),
    ∑ a ∈ Finset.range (k + 1),
        ((if a = 0 then res else 0) - ∑ b ∈ Finset.range k, h a b * solve k h res b) ^ 2 ≤
      ∑ a ∈ Finset.range (k + 1), ((if a = 0 then res else 0) - ∑ b ∈ Finset.range k, h a b * c b) ^ 2

end Hexed.Krylov

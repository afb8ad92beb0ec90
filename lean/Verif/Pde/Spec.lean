import Mathlib.Analysis.Calculus.Deriv.Basic
import Verif.Pde.Model
set_option autoImplicit false
set_option linter.unusedVariables false

/-!
# Gas dynamics of a perfect diatomic gas: textbook definitions

A state `u` lists momentum `0 .. nd-1`, mass `nd`, total energy `nd+1`, all per volume.
-/

namespace Hexed.Pde
noncomputable section

def dotN (nd : Nat) (a b : Nat → ℝ) : ℝ := ∑ i ∈ Finset.range nd, a i * b i

/-- p = (γ-1)(E - |ρv|²/2ρ), γ = 7/5. -/
def Pres (nd : Nat) (u : Nat → ℝ) : ℝ := 2 / 5 * (u (nd + 1) - dotN nd u u / (2 * u nd))
/-- c = √(γp/ρ). -/
def Sound (nd : Nat) (u : Nat → ℝ) : ℝ := √(7 / 5 * Pres nd u / u nd)
/-- v = ρv/ρ. -/
def Vel (nd : Nat) (u : Nat → ℝ) (i : Nat) : ℝ := u i / u nd
/-- |v|. -/
def Speed (nd : Nat) (u : Nat → ℝ) : ℝ := √(dotN nd (Vel nd u) (Vel nd u))
/-- Positive density and pressure. -/
structure Admissible (nd : Nat) (u : Nat → ℝ) : Prop where
  mass : 0 < u nd
  pres : 0 < Pres nd u

/-- The Euler flux through an area vector `n`. -/
def Euler (nd : Nat) (u n : Nat → ℝ) (v : Nat) : ℝ :=
  dotN nd (Vel nd u) n * u v + (if v < nd then Pres nd u * n v else if v = nd then 0 else Pres nd u * dotN nd (Vel nd u) n)

/-- `d` is an eigenvector, with eigenvalue `lam`, of the Jacobian at `u` of the Euler flux along `n` (or zero). -/
def IsEigen (nd : Nat) (u n d : Nat → ℝ) (lam : ℝ) : Prop :=
  ∀ v < nd + 2, HasDerivAt (fun t => Euler nd (fun i => u i + t * d i) n v) (lam * d v) 0

/-- The viscous stress of a Newtonian gas with bulk viscosity `b` (kinematic, times ρ) on top of Stokes' hypothesis, from the velocity
gradient. -/
def Newton (nd : Nat) (mu bulk : ℝ) (g : Nat → Nat → ℝ) (i j : Nat) : ℝ :=
  mu * (g i j + g j i) + (bulk - 2 / 3 * mu) * (∑ k ∈ Finset.range nd, g k k) * (if i = j then 1 else 0)

/-- v(t) is the state at parameter t; `grad` is a directional derivative of the state. -/
def IsGrad (nd : Nat) (u : ℝ → Nat → ℝ) (d : Nat → ℝ) : Prop := ∀ v < nd + 2, HasDerivAt (fun t => u t v) (d v) 0

end
end Hexed.Pde

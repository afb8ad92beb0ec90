import Verif.Exact.Model
import Mathlib.Analysis.Calculus.Deriv.Basic
set_option autoImplicit false
set_option linter.unusedVariables false

/-!
# What analytic flow fields should satisfy (C82)
-/

namespace Hexed.Exact
noncomputable section

/-- Pressure of a state (momentum in two directions, density, energy) of a perfect gas with heat ratio `g`. -/
def pres (g : ℝ) (u : Nat → ℝ) : ℝ := (g - 1) * (u 3 - (u 0 ^ 2 + u 1 ^ 2) / (2 * u 2))

/-- Flux of momentum, mass and energy in direction `i` (0 or 1) of the Euler equations in two dimensions. -/
def flux (g : ℝ) (i : Nat) (u : Nat → ℝ) (k : Nat) : ℝ :=
  if k = 2 then u i else if k = 3 then (u 3 + pres g u) * u i / u 2 else u k * u i / u 2 + if k = i then pres g u else 0

/-- Equation `k` of the Euler equations at a point: the rate of change of the state and the divergence of the flux add up to zero. -/
def Balance (g : ℝ) (U : ℝ → ℝ → ℝ → Nat → ℝ) (t x y : ℝ) (k : Nat) : Prop :=
  ∃ dt dx dy, HasDerivAt (fun s => U s x y k) dt t ∧ HasDerivAt (fun s => flux g 0 (U t s y) k) dx x ∧ HasDerivAt (fun s => flux g 1 (U t x s) k) dy y ∧ dt + dx + dy = 0

/-- `U` is a solution of the Euler equations of inviscid compressible flow, at all times and places. -/
def SolvesEuler (g : ℝ) (U : ℝ → ℝ → ℝ → Nat → ℝ) : Prop := ∀ t x y, ∀ k < 4, Balance g U t x y k

/-- `f` solves the Laplace equation at a point (x, y) off the origin. -/
def Harmonic (f : ℝ → ℝ → ℝ) : Prop :=
  ∃ fx fy : ℝ → ℝ → ℝ, ∀ x y, (x ≠ 0 ∨ y ≠ 0) → HasDerivAt (fun s => f s y) (fx x y) x ∧ HasDerivAt (fun s => f x s) (fy x y) y ∧
    ∃ fxx fyy, HasDerivAt (fun s => fx s y) fxx x ∧ HasDerivAt (fun s => fy x s) fyy y ∧ fxx + fyy = 0

/-- A velocity field has no sources and no vorticity at a point. -/
def Incompressible (v : ℝ → ℝ → ℝ × ℝ) (x y : ℝ) : Prop :=
  ∃ ux uy vx vy, HasDerivAt (fun s => (v s y).1) ux x ∧ HasDerivAt (fun s => (v x s).1) uy y ∧ HasDerivAt (fun s => (v s y).2) vx x ∧ HasDerivAt (fun s => (v x s).2) vy y ∧
    ux + vy = 0 ∧ vx - uy = 0

/-- The parameters of a vortex make sense: the gas has positive density and internal energy, and the vortex is not so strong that it empties its center. -/
structure Vortex.Ok (e : Vortex) : Prop where
  density : 0 < e.freestream2
  energy : 0 < e.freestream3 - (e.freestream0 ^ 2 + e.freestream1 ^ 2) / (2 * e.freestream2)
  heatRat : 1 < e.heat_rat
  radius : 0 < e.vortex_argmax_radius
  strength : (e.heat_rat - 1) / 2 * e.vortex_nondim_veloc ^ 2 * Real.exp 1 < 1

end
end Hexed.Exact

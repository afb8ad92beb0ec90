import Verif.Visc.Model
import Verif.Stats.ModalSpec
import Verif.Share.Spec
import Mathlib.Analysis.SpecialFunctions.Pow.Real
set_option autoImplicit false
set_option linter.unusedVariables false

/-! # Specification: artificial viscosity from the smoothness of elements -/

namespace Hexed.Visc
open Hexed.Tensor Hexed.Basis Hexed.Stats

/-- The part of the square of a function that is in its Legendre modes of highest degree in a variable, on average over the variables. -/
noncomputable def topFraction (b : Nodes ℝ) {nd : Nat} (v : (Fin nd → Fin b.n) → ℝ) : ℝ :=
  (∑ i : Fin nd, ∑ d ∈ Finset.univ.filter (fun d : Fin nd → Fin b.n => (d i : Nat) = b.n - 1), mode b v d ^ 2) / (nd * ∑ d : Fin nd → Fin b.n, mode b v d ^ 2)

/-- The threshold: the power -4.25 of the degree. -/
noncomputable def threshold (row_size : Nat) : ℝ := ((row_size : ℝ) - 1) ^ (-(17 / 4) : ℝ)

/-- `θ` is a ramp around the threshold `T`: continuous and monotone, from zero at `T/√10` to one at `√10 T`. -/
structure IsRamp (T : ℝ) (θ : ℝ → ℝ) : Prop where
  continuous : ContinuousOn θ (Set.Ici 0)
  monotone : MonotoneOn θ (Set.Ici 0)
  zero : ∀ x, 0 ≤ x → x ≤ T / √10 → θ x = 0
  half : θ T = 1 / 2
  one : ∀ x, T * √10 ≤ x → θ x = 1

/-- The quadrature point with coordinates `c`, as a function of the dimension. -/
noncomputable def at_ (b : Nodes ℝ) {nd : Nat} (c : Fin nd → Fin b.n) (k : Nat) : ℝ := if h : k < nd then b.node (c ⟨k, h⟩) else 0

end Hexed.Visc

import Verif.Residual.Model
set_option autoImplicit false
set_option linter.unusedVariables false

/-!
# What looking at a flow must not do, and what residuals are
-/

namespace Hexed.Residual
open Hexed.Spatial Hexed.Pde Hexed.Solver
noncomputable section

/-- The faces are up to date: writing them from the states again changes nothing. -/
def Setup.Ready (s : Setup) (w : World) : Prop := s.writeFaces w = w

/-- Whether an operation is a time step. -/
def Op.isStep : Op → Bool
  | .step _ _ => true
  | _ => false

/-- No visualization fails. -/
def Op.succeeds : Op → Bool
  | .vis _ _ shows => shows
  | _ => true

/-- The rate of change of stored variable `v` at point `q` of element `e` in the first stage of a time step: the change per unit of local
time (the time step times the time step scale of that point). -/
def rate (tss : Nat → Nat → ℝ) (dt : ℝ) (w w1 : World) (e v q : Nat) : ℝ := (w1.state e (v, q) - w.state e (v, q)) / (dt * tss e q)

/-- The integral over the domain of the square of a function. -/
def normSq (bs : BasisData) (m : Mesh) (f : Nat → Nat → ℝ) : ℝ :=
  (m.elems.map fun e => (m.elem e).size ^ m.nd * ∑ q ∈ Finset.range (bs.n ^ m.nd), qw bs.weight bs.n m.nd q * (m.elem e).det q * f e q ^ 2).sum

end
end Hexed.Residual

import Verif.Flow.Model
set_option autoImplicit false
set_option linter.unusedVariables false

/-!
# What functions of the flow should return (C81)
-/

namespace Hexed.Flow
open Hexed.Force
noncomputable section

/-- The state vector of a perfect gas with heat ratio `g` that has density `rho` and pressure `p` and moves with velocity `v`. -/
def gas (g : ℝ) (v : List ℝ) (rho p : ℝ) : List ℝ := v.map (fun x => rho * x) ++ [rho, p / (g - 1) + 1 / 2 * rho * (v.map fun x => x ^ 2).sum]

/-- The speed: the length of the velocity. -/
def speed (v : List ℝ) : ℝ := √(v.map fun x => x ^ 2).sum

/-- Density `rho0` and pressure `p0` are those of the gas after it has been brought to rest without losses: entropy is the same (`p / rho ^ g`)
and so is stagnation enthalpy (enthalpy `g / (g - 1) * p / rho` plus kinetic energy, per mass). -/
structure BroughtToRest (g : ℝ) (v : List ℝ) (rho p rho0 p0 : ℝ) : Prop where
  density : 0 < rho0
  pressure : 0 < p0
  entropy : p0 / rho0 ^ g = p / rho ^ g
  enthalpy : g / (g - 1) * p0 / rho0 = g / (g - 1) * p / rho + 1 / 2 * speed v ^ 2

/-- A function returns as many values as it says. -/
def Func.Ok {α : Type} (f : Func α) (nd : Nat) (args : α) : Prop := ∀ r, f.eval args = some r → r.length = f.nVar nd

end
end Hexed.Flow

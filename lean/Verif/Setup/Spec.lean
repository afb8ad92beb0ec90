import Verif.Setup.Model
import Verif.Pde.Spec
set_option autoImplicit false
set_option linter.unusedVariables false

/-!
# What an input file asks for (C84)
-/

namespace Hexed.Setup
open Hexed.Pde
noncomputable section

/-- `x` does not exist. -/
def Space.Lacks (s : Space) (x : String) : Prop := s x = none
/-- `x` is the number `v`. -/
def Space.Is (s : Space) (x : String) (v : ℝ) : Prop := s x = some (.num v)

/-- The wall has heat flux `q` out of the domain; or specific internal energy `e`; or is in equilibrium with radiation and conduction. The thermal boundary condition
that a set of variables specifies. The names are those that the program reads; the documentation has `conduction` instead of `heat_transfer_coef`. -/
inductive Specified (s : Space) : Thermal → Prop
  | heat_flux (q : ℝ) : s.Is "heat_flux" q → Specified s (.heatFlux q)
  | internal_energy (e : ℝ) : s.Lacks "heat_flux" → s.Lacks "emissivity" → s.Lacks "heat_transfer_coef" → s.Is "internal_energy" e → Specified s (.energy e)
  | temperature (t : ℝ) : s.Lacks "heat_flux" → s.Lacks "emissivity" → s.Lacks "heat_transfer_coef" → s.Lacks "internal_energy" → s.Is "temperature" t →
      Specified s (.energy (t * (28705287 / 100000) / (2 / 5)))
  | radiation (eps : ℝ) : s.Lacks "heat_flux" → s.Is "emissivity" eps → s.Lacks "heat_transfer_coef" → s.Lacks "temperature" → Specified s (.equilibrium eps 0 0)
  | conduction (h t : ℝ) : s.Lacks "heat_flux" → s.Lacks "emissivity" → s.Is "heat_transfer_coef" h → s.Is "temperature" t → Specified s (.equilibrium 0 h t)
  | both (eps h t : ℝ) : s.Lacks "heat_flux" → s.Is "emissivity" eps → s.Is "heat_transfer_coef" h → s.Is "temperature" t → Specified s (.equilibrium eps h t)

/-- Temperature of a calorically perfect gas in state `u` (momentum, mass, energy): pressure over density and gas constant. -/
def temperatureOf (nd : Nat) (u : Nat → ℝ) : ℝ := Pres nd u / (u nd * (28705287 / 100000))

/-- The average of the states on both sides of a wall. -/
def wallState (nd : Nat) (b : Thermal) (u : Nat → ℝ) (i : Nat) : ℝ := (u i + noSlipState nd (b.ghostEnergy nd) u i) / 2
/-- Diffusive flux of energy through the wall, out of the domain, per area: the average of the fluxes on both sides, where `f` is that of the inside, `n` the normal and
`sign` is 1 if the normal points out of the domain, and -1 otherwise. `u` is the state inside. -/
def wallHeatFlux (nd : Nat) (coercion : ℝ) (b : Thermal) (n : Nat → ℝ) (sign : ℝ) (u f : Nat → ℝ) : ℝ :=
  sign * ((f (nd + 1) + noSlipFlux nd coercion (b.ghostHeatFlux nd) (noSlipCache nd (b.ghostEnergy nd) u) n sign f (nd + 1)) / 2) / √(dotN nd n n)
/-- That of the flow inside. -/
def insideHeatFlux (nd : Nat) (n : Nat → ℝ) (sign : ℝ) (f : Nat → ℝ) : ℝ := sign * f (nd + 1) / √(dotN nd n n)

/-- The boundary condition named `name`. -/
inductive Named (fs : Nat → ℝ) (s own : Space) (name : String) : Bc → Prop
  | characteristic : name = "characteristic" → Named fs s own name (.characteristic fs)
  | freestream : name = "freestream" → Named fs s own name (.freestream fs)
  | pressure_outflow (p : ℝ) : name = "pressure_outflow" → s.Is "freestream_pressure" p → Named fs s own name (.pressureOutflow p)
  | outflow : name = "outflow" → Named fs s own name .outflow
  | nonpenetration : name = "nonpenetration" → Named fs s own name .nonpenetration
  | no_slip (t : Thermal) (c : ℝ) : name = "no_slip" → Specified own t → s.Is "heat_flux_coercion" c → Named fs s own name (.noSlip t c)

/-- The point `x` is in the box with the given extremes. -/
def InBox (nd : Nat) (e : Nat → Nat → ℝ) (x : Nat → ℝ) : Prop := ∀ d ≤ nd, e d 0 ≤ x d ∧ x d ≤ e d 1

end
end Hexed.Setup

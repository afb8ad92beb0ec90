import Verif.Free.Model
import Verif.Structured.Model
import Verif.Tree.Model
set_option autoImplicit false
set_option linter.unusedVariables false

/-!
# Setting up a case from the input file: boundary conditions, transport models, domain (C84)

Simplifications: floating point numbers are real numbers. Code that is given as text is executed before; what is modelled is what is done with
the variables that it leaves behind (executing code is the subject of `Hil` and `Structured`).
-/

namespace Hexed.Setup
open Hexed.Pde Hexed.Force
noncomputable section

/-- A value of a variable: a number or a text. -/
inductive Value
  | num (x : ℝ)
  | text (s : String)

/-- The variables of an interpreter. -/
abbrev Space := String → Option Value

/-- `exists(name)`, Namespace.hpp:79-82. -/
def Space.has (s : Space) (name : String) : Bool := (s name).isSome
/-- `lookup<double>(name)` without the supernamespaces, Namespace.hpp:120-133; numbers are not told apart by their type. -/
def Space.num (s : Space) (name : String) : Option ℝ := (s name).bind fun v => match v with | .num x => some x | .text _ => none
/-- `lookup<std::string>(name)` without the supernamespaces, Namespace.hpp:120-133. -/
def Space.str (s : Space) (name : String) : Option String := (s name).bind fun v => match v with | .num _ => none | .text t => some t
/-- The variables seen from a subspace, Namespace.hpp:134-139: its own ones, then those of the space above. -/
def Space.under (own outer : Space) : Space := fun n => (own n).orElse fun _ => outer n
/-- Numbers only, for the functions of `Free`. -/
def Space.vars (s : Space) : Vars := fun n => s.num n

/-- Thermal boundary conditions, Boundary_condition.hpp:135-190: `Prescribed_heat_flux`, `Prescribed_energy` and `Thermal_equilibrium`. -/
inductive Thermal
  | heatFlux (q : ℝ)
  | energy (e : ℝ)
  | equilibrium (emissivity heat_transfer_coef temperature : ℝ)

/-- `thermal->temperature = …` and the like, Case.cpp:57-60: members keep their initial value zero (Boundary_condition.hpp:180-182) if the variable does not exist. -/
def member (own : Space) (present : Bool) (name : String) : Option ℝ := if present then own.num name else some 0

/-- The choice of the thermal boundary condition, Case.cpp:49-69, from the variables `own` of the sub-interpreter after executing `thermal_bc`. `none` is an exception. -/
def thermal (own : Space) : Option Thermal :=
  if own.has "heat_flux" then (own.num "heat_flux").map .heatFlux
  else if own.has "emissivity" || own.has "heat_transfer_coef" then
    if own.has "heat_transfer_coef" = own.has "temperature" then
      (member own (own.has "emissivity") "emissivity").bind fun eps => (member own (own.has "heat_transfer_coef") "heat_transfer_coef").bind fun h =>
        (member own (own.has "heat_transfer_coef") "temperature").map fun t => .equilibrium eps h t
    else none
  else if own.has "internal_energy" then (own.num "internal_energy").map .energy
  else if own.has "temperature" then (own.num "temperature").map fun t => .energy (t * gasAir / (heatRat - 1))
  else none

/-- `constants::boltzmann`, constants.hpp:38. -/
def boltzmann : ℝ := 1380649 / 10 ^ 29
/-- `constants::light_speed`, constants.hpp:35. -/
def lightSpeed : ℝ := 299792458
/-- `constants::plank`, constants.hpp:36. -/
def plank : ℝ := 662607015 / 10 ^ 42
/-- `constants::stefan_boltzmann`, constants.hpp:52. -/
def stefanBoltzmann : ℝ := 2 * Real.pi ^ 5 * boltzmann ^ 4 / (15 * lightSpeed ^ 2 * plank ^ 3)

/-- `Thermal_equilibrium::ghost_heat_flux`, Boundary_condition.cpp:373-379. -/
def equilibriumFlux (nd : Nat) (emissivity heat_transfer_coef temperature : ℝ) (state : Nat → ℝ) (_ : ℝ) : ℝ :=
  let temp := state (nd + 1) * (4 / 10) / state nd / gasAir
  let radiative_flux := emissivity * stefanBoltzmann * temp ^ 4
  let conductive_flux := heat_transfer_coef * (temp - temperature)
  radiative_flux + conductive_flux

/-- `ghost_energy` of each thermal boundary condition, Boundary_condition.hpp:159, 170, 184. -/
def Thermal.ghostEnergy (nd : Nat) : Thermal → (Nat → ℝ) → ℝ
  | .heatFlux _ => keepEnergy nd
  | .energy e => prescribedEnergy nd e
  | .equilibrium _ _ _ => keepEnergy nd
/-- `ghost_heat_flux` of each thermal boundary condition, Boundary_condition.hpp:160, 171, 185. -/
def Thermal.ghostHeatFlux (nd : Nat) : Thermal → (Nat → ℝ) → ℝ → ℝ
  | .heatFlux q => prescribedHeatFlux q
  | .energy _ => prescribedEnergyFlux
  | .equilibrium eps h t => equilibriumFlux nd eps h t

/-- Boundary conditions that a case can have, Boundary_condition.hpp. -/
inductive Bc
  | characteristic (freestream : Nat → ℝ)
  | freestream (freestream : Nat → ℝ)
  | pressureOutflow (pressure : ℝ)
  | outflow
  | nonpenetration
  | noSlip (thermal : Thermal) (coercion : ℝ)

/-- `Case::_make_bc`, Case.cpp:41-74, where `own` are the variables that `thermal_bc` assigns. `none` is an exception. -/
def makeBc (nd : Nat) (s own : Space) (name : String) : Option Bc :=
  (Free.getVector s.vars "freestream" (nd + 2)).bind fun fs =>
    if name = "characteristic" then some (.characteristic fs)
    else if name = "freestream" then some (.freestream fs)
    else if name = "pressure_outflow" then (s.num "freestream_pressure").map .pressureOutflow
    else if name = "outflow" then some .outflow
    else if name = "nonpenetration" then some .nonpenetration
    else if name = "no_slip" then (thermal own).bind fun t => (s.num "heat_flux_coercion").map fun c => .noSlip t c
    else none

/-- `format_str(50, "…%i%i", i_dim, sign)`, Case.cpp:92 and 222. -/
def indexed (name : String) (i_dim sign : Nat) : String := name ++ toString i_dim ++ toString sign

/-- `Case::_make_extremal_bcs`, Case.cpp:87-96. -/
def makeExtremalBcs (nd : Nat) (s own : Space) : Option (List Bc) :=
  (List.range nd).foldlM (fun bcs i_dim => (List.range 2).foldlM (fun (bcs : List Bc) sign =>
    (s.str (indexed "extremal_bc" i_dim sign)).bind fun name => (makeBc nd s own name).map fun bc => bcs ++ [bc]) bcs) []

/-- The index of the boundary condition to which `add_tree` connects a face of the root element, Accessible_mesh.cpp:678-682. -/
def rootBc (i_dim sign : Nat) : Nat := 2 * i_dim + sign

/-- Outcome of a choice: a value, an exception, or undefined behaviour. -/
inductive Chosen (α : Type)
  | ok (a : α)
  | throws
  | ub

/-- The choice of a transport model, Case.cpp:229-239, from the names that the model defines, the variables `own` of the sub-interpreter after evaluating it, and those `outer`
of the case. The message of the exception passes a `std::string` for `%s` (238), which is undefined. -/
def transport (names : List (List Char)) (own outer : Space) : Chosen Transport :=
  if names = [] then .ok Transport.inviscid
  else if own.has "offset" then
    match (own.under outer).num "ref_value", (own.under outer).num "ref_temperature", (own.under outer).num "offset" with
    | some v, some t, some o => .ok (Transport.sutherland v t o)
    | _, _, _ => .throws
  else .ub

/-- The boundary condition chosen for surfaces, Case.hil:296-301. -/
def surfaceBc (surface_bc viscosity_model : String) : String :=
  if surface_bc = "auto" then
    if viscosity_model = "" then "nonpenetration" else "no_slip"
  else surface_bc

/-- `mesh_extremes`, Case.cpp:219-224. -/
def extremes (nd : Nat) (s : Space) : Option (Nat → Nat → ℝ) :=
  if (List.range nd).all (fun d => (List.range 2).all fun sign => (s.num (indexed "mesh_extreme" d sign)).isSome) then some fun d sign => (s.num (indexed "mesh_extreme" d sign)).getD 0 else none

/-- `maxCoeff()` of Eigen, for a vector that is not empty. -/
def maxCoeff : Nat → (Nat → ℝ) → ℝ
  | 0, f => f 0
  | n + 1, f => max (maxCoeff n f) (f (n + 1))

/-- The root of the tree, Case.cpp:219-226 and 240-241, and Accessible_mesh.cpp:663-671: its size and its origin. The number of dimensions is `nd` + 1. `none` is an exception. -/
def root (nd : Nat) (s : Space) : Option (ℝ × (Nat → ℝ)) :=
  (extremes (nd + 1) s).bind fun e =>
    if ∀ d ≤ nd, 0 < e d 1 - e d 0 then some (maxCoeff nd fun d => e d 1 - e d 0, fun d => e d 0) else none

/-- The start of the flood fill, Case.hil:302-312. `start` and `extreme` are the values of the variables `flood_fill_start…` and `mesh_extreme…`. -/
def floodStart (huge eps : ℝ) (extreme : Nat → Nat → ℝ) (start : Nat → ℝ) (d : Nat) : ℝ :=
  if start 0 = huge then (1 - eps) * extreme d 0 + eps * extreme d 1 else start d

/-- The cell on which `set_surface` calls `flood_fill(1)`, Accessible_mesh.cpp:711-713, as a path from the root. -/
def floodCell {nd : Nat} (rootSz : ℝ) (orig start : Fin nd → ℝ) (t : Tree nd) : Tree.Path := (Tree.findLeafPos rootSz orig start t).getD []

/-- What is read of an `Element` by `hil_properties::element`; `vertex` are the positions of its vertices. -/
structure Elem where
  in_tree : Bool
  refinement_level : Nat
  nominal_size : ℝ
  uncertainty : ℝ
  snapping_problem : Bool
  n_vertices : Nat
  vertex : Nat → Nat → ℝ

/-- `hil_properties::element`, hil_properties.cpp:6-23. -/
def element (s : Vars) (e : Elem) : Vars :=
  let s := s.assign "is_extruded" (if e.in_tree then 0 else 1)
  let s := s.assign "ref_level" e.refinement_level
  let s := s.assign "nom_sz" e.nominal_size
  let s := s.assign "uncertainty" e.uncertainty
  let s := s.assign "snapping_problem" (if e.snapping_problem then 1 else 0)
  Free.setVector s "center" 3 fun d => sumN e.n_vertices (fun v => e.vertex v d) / e.n_vertices

end
end Hexed.Setup

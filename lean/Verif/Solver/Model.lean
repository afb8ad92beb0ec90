import Verif.Spatial.Spec
import Verif.Pde.Model
set_option autoImplicit false
set_option linter.unusedVariables false

/-!
# Model of boundary conditions on a whole mesh and of a flow time step (src/Solver.cpp)
-/

namespace Hexed.Solver
open Hexed.Spatial Hexed.Pde
noncomputable section

/-- What a boundary condition does at one point: from the surface normal and the inside values to the ghost values. It may differ from
connection to connection. -/
abbrev Rule := ConRec → (Nat → ℝ) → (Nat → ℝ) → Nat → ℝ

/-- One call of `apply_state` or `apply_flux` on a face of `N` points: the loops over points and variables that the functions of
Boundary_condition.cpp (e.g. 319-344, 381-427) consist of. -/
def faceBc (N nvar : Nat) (rule : (Nat → ℝ) → (Nat → ℝ) → Nat → ℝ) (normal inside ghost : Mem) : Mem :=
  fun a => if a < nvar * N then rule (fun i => normal (i * N + a % N)) (fun v => inside (v * N + a % N)) (a / N) else ghost a

/-- `Solver::apply_state_bcs` (`ldg` = false), Solver.cpp:56-67, and `Solver::apply_flux_bcs` (`ldg` = true), Solver.cpp:69-81, without the
stopwatch and the flux cache (which is for output). -/
def runBc (nd n nvar : Nat) (ldg : Bool) (rule : Rule) (cons : List ConRec) (w : World) : World :=
  cons.foldl (fun w c =>
    if (c.side true).isGhost then
      let new := faceBc (n ^ (nd - 1)) nvar (rule c) c.normal (w.buf (c.side false) ldg) (w.buf (c.side true) ldg)
      { w with buf := fun b l => if b = c.side true ∧ l = ldg then new else w.buf b l }
    else w) w

/-- The body of the Chebyshev loop of `Solver::update`, Solver.cpp:856-867, with `fix_admis` off; `useLdg` is `use_ldg()`. -/
def flowStep (useLdg : Bool) (mu kappa : Transport) (bs : BasisData) (m : Mesh) (sr dt : ℝ) (filter : Bool) (state_bc flux_bc : World → World) (w : World) : Option World :=
  let w := state_bc w
  (if useLdg then computeDiffusion (ns m.nd true mu kappa) bs m flux_bc sr dt false false filter w
   else computeConvection (ns m.nd false mu kappa) bs m sr dt false false filter w).bind fun w =>
  computeConvection (ns m.nd false mu kappa) bs m sr dt true false filter (state_bc w)

/-- Several steps with the given time steps (whatever `max_dt` and `chebyshev_step` returned). -/
def flow (useLdg : Bool) (mu kappa : Transport) (bs : BasisData) (m : Mesh) (sr : ℝ) (filter : Bool) (state_bc flux_bc : World → World) (dts : List ℝ) (w : World) : Option World :=
  dts.foldlM (fun w dt => flowStep useLdg mu kappa bs m sr dt filter state_bc flux_bc w) w

/-- The kinds of wall a solid surface may have. -/
inductive Wall where
  | nonpenetration
  | noSlip (coercion heat_flux : ℝ)

/-- `Nonpenetration::apply_state`; `No_slip::apply_state` with `Prescribed_heat_flux`, Boundary_condition.cpp:319-331, 381-400. -/
def Wall.state (nd : Nat) : Wall → (Nat → ℝ) → (Nat → ℝ) → Nat → ℝ
  | .nonpenetration => nonpenState nd
  | .noSlip _ _ => fun _ inside => noSlipState nd (keepEnergy nd) inside

/-- `Nonpenetration::apply_flux`; `No_slip::apply_flux` with `Prescribed_heat_flux`, Boundary_condition.cpp:333-344, 402-427. The state cache
is not used by `Prescribed_heat_flux`. -/
def Wall.flux (nd : Nat) (inside_face_sign : Bool) : Wall → (Nat → ℝ) → (Nat → ℝ) → Nat → ℝ
  | .nonpenetration => nonpenFlux nd
  | .noSlip coercion q => fun normal inside => noSlipFlux nd coercion (prescribedHeatFlux q) (fun _ => 0) normal (if inside_face_sign then 1 else -1) inside

end
end Hexed.Solver

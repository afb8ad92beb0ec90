import Verif.Solver.Model
import Verif.Stats.Model
set_option autoImplicit false
set_option linter.unusedVariables false

/-!
# Model of looking at a flow between time steps

`Solver::compute_residual` and the residuals of a case (src/Solver.cpp, src/Case.cpp, src/Qpoint_func.cpp), `Solver::vis_lts_constraints`
(src/Solver.cpp), the preparation of the faces in `Solver::initialize`, and histories in which these are mixed with time steps. The
kernels and the time step are those of `Verif/Spatial/Model.lean` and `Verif/Solver/Model.lean`.
-/

namespace Hexed.Residual
open Hexed.Spatial Hexed.Pde Hexed.Solver
noncomputable section

/-- What does not change during a simulation: the members of `Solver` and the variables that `update` looks up. `stateRule` and `fluxRule`
are what the boundary conditions do at a point; the time step scales of `mesh` are not used (they are in `Sim`). -/
structure Setup where
  useLdg : Bool
  mu : Transport
  kappa : Transport
  bs : BasisData
  mesh : Mesh
  stepRatio : ℝ
  filter : Bool
  stateRule : Rule
  fluxRule : Rule

/-- The equations that are solved: `pde::Navier_stokes<use_ldg()>`. -/
def Setup.pde (s : Setup) : Spatial.Pde := ns s.mesh.nd s.useLdg s.mu s.kappa

/-- The mesh with the given values of `time_step_scale()`. -/
def withTss (m : Mesh) (tss : Nat → Nat → ℝ) : Mesh := { m with elem := fun e => { m.elem e with tss := tss e } }

/-- `Solver::apply_state_bcs`, Solver.cpp:56-67. -/
def Setup.stateBc (s : Setup) : World → World := runBc s.mesh.nd s.bs.n (s.mesh.nd + 2) false s.stateRule s.mesh.cons
/-- `Solver::apply_flux_bcs`, Solver.cpp:69-81. -/
def Setup.fluxBc (s : Setup) : World → World := runBc s.mesh.nd s.bs.n (s.mesh.nd + 2) true s.fluxRule s.mesh.cons

/-- `compute_write_face` and `compute_prolong`, kernels_convective.cpp:23-26, 43-46, as `Solver::initialize` calls them, Solver.cpp:400-401.
The class `Write_face` is instantiated for the inviscid equations there. -/
def Setup.writeFaces (s : Setup) (w : World) : World :=
  runProlong (ns s.mesh.nd false s.mu s.kappa) s.bs s.mesh false false
    (s.mesh.elems.foldl (onElem s.mesh.nd fun _ state cache faces visc => ⟨state, cache, writeFace (ns s.mesh.nd false s.mu s.kappa) s.bs s.mesh.nd state faces, visc⟩) w)

/-- `Solver::compute_residual`, Solver.cpp:899-914. -/
def Setup.computeResidual (s : Setup) (tss : Nat → Nat → ℝ) (w : World) : Option World :=
  if s.useLdg then computeDiffusion (ns s.mesh.nd true s.mu s.kappa) s.bs (withTss s.mesh tss) s.fluxBc s.stepRatio 1 false true s.filter (s.stateBc w)
  else computeConvection (ns s.mesh.nd false s.mu s.kappa) s.bs (withTss s.mesh tss) s.stepRatio 1 false true s.filter (s.stateBc w)

/-- The first stage of a time step, Solver.cpp:863-865 with `i = 0`. -/
def Setup.stage (s : Setup) (tss : Nat → Nat → ℝ) (dt : ℝ) (w : World) : Option World :=
  if s.useLdg then computeDiffusion (ns s.mesh.nd true s.mu s.kappa) s.bs (withTss s.mesh tss) s.fluxBc s.stepRatio dt false false s.filter (s.stateBc w)
  else computeConvection (ns s.mesh.nd false s.mu s.kappa) s.bs (withTss s.mesh tss) s.stepRatio dt false false s.filter (s.stateBc w)

/-- One time step, Solver.cpp:854-868. -/
def Setup.step (s : Setup) (tss : Nat → Nat → ℝ) (dt : ℝ) (w : World) : Option World :=
  flowStep s.useLdg s.mu s.kappa s.bs (withTss s.mesh tss) s.stepRatio dt s.filter s.stateBc s.fluxBc w

/-- `Physical_residual`, Qpoint_func.cpp:37-45, at element `e`. -/
def physical (nd : Nat) (tss : Nat → Nat → ℝ) (w : World) (e q : Nat) : Tensor.Vec ℝ := ⟨nd + 2, fun v => w.cache e (v, q) / tss e q⟩

/-- `Pow(phys_resid, 2)`, Qpoint_func.cpp:60-71. -/
def square (v : Tensor.Vec ℝ) : Tensor.Vec ℝ := ⟨v.size, fun i => MathFn.pow (v.val i) 2⟩

/-- `compute_residuals` of a case, Case.cpp:385-396, after `compute_residual`: the values that are assigned to `residual_momentum`,
`residual_density` and `residual_energy`. `none` = an index is out of range. -/
def residuals (b : Basis.Nodes ℝ) (u : Nat → ℝ) (s : Setup) (tss : Nat → Nat → ℝ) (w : World) : Option (ℝ × ℝ × ℝ) :=
  (Stats.integralField b u s.mesh.nd (s.mesh.nd + 2) s.mesh.elems (fun e => ⟨(s.mesh.elem e).size, (s.mesh.elem e).det⟩)
    (fun e q => square (physical s.mesh.nd tss w e q))).bind fun res =>
  let res0 := (List.range (s.mesh.nd - 1)).foldl (fun r i => r + res.val (i + 1)) (res.val 0)
  if s.mesh.nd + 1 < res.size then some (√res0, √(res.val s.mesh.nd), √(res.val (s.mesh.nd + 1))) else none

/-- `Solver::vis_lts_constraints`, Solver.cpp:1318-1354. `conv` and `diff` are the time step scales that `max_dt` writes for convection alone
and for diffusion alone; `shows` says that `visualize_field` returns (it throws for an unknown format, Solver.cpp:1213, or if the file cannot
be written). Result: the data afterwards and the states that were visualized. -/
def visLts (nd : Nat) (elems : List Nat) (conv diff : Nat → Nat → ℝ) (shows : Bool) (w : World) : World × (Nat → Arr) :=
  -- write the time steps to the reference state
  let w1 : World := { w with cache := fun e k => if e ∈ elems then (if k.1 = nd then conv e k.2 else if k.1 = nd + 1 then diff e k.2 else w.cache e k) else w.cache e k }
  -- swap
  let w2 : World := { w1 with
    state := fun e k => if e ∈ elems ∧ k.1 < nd + 2 then w1.cache e k else w1.state e k
    cache := fun e k => if e ∈ elems ∧ k.1 < nd + 2 then w1.state e k else w1.cache e k }
  -- restore
  let w3 : World := { w2 with state := fun e k => if e ∈ elems ∧ k.1 < nd + 2 then w2.cache e k else w2.state e k }
  (if shows then w3 else w2, w2.state)

/-- What changes during a simulation: the data of elements and faces, and `time_step_scale()`. -/
structure Sim where
  world : World
  tss : Nat → Nat → ℝ

/-- What a user can have done. `step`: an iteration of the loop of `Solver::update`; the time step and the time step scales are those that
`max_dt` computes from the states. `residual`: `compute_residual` (done whenever a line of the report is printed). `vis`: `vis_lts_constraints`. -/
inductive Op where
  | step (dt : (Nat → Arr) → ℝ) (tss : (Nat → Arr) → Nat → Nat → ℝ)
  | residual
  | vis (conv diff : (Nat → Arr) → Nat → Nat → ℝ) (shows : Bool)

/-- The effect of an operation. -/
def Setup.exec (s : Setup) (x : Sim) : Op → Option Sim
  | .step dt tss => (s.step (tss x.world.state) (dt x.world.state) x.world).map fun w => ⟨w, tss x.world.state⟩
  | .residual => (s.computeResidual x.tss x.world).map fun w => ⟨w, x.tss⟩
  | .vis conv diff shows => some ⟨(visLts s.mesh.nd s.mesh.elems (conv x.world.state) (diff x.world.state) shows x.world).1, diff x.world.state⟩

/-- A history. -/
def Setup.run (s : Setup) (ops : List Op) (x : Sim) : Option Sim := ops.foldlM s.exec x

end
end Hexed.Residual

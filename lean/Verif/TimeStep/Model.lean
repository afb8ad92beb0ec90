import Mathlib.Analysis.SpecialFunctions.Trigonometric.Basic
import Verif.Pde.Model
set_option autoImplicit false
set_option linter.unusedVariables false

/-!
# Model of the choice of the time step

`math::interp` (include/math.hpp), `math::chebyshev_step` (src/math.cpp), the kernel `Max_dt`
(include/Spatial.hpp) with the functions that run it (src/kernels_max_dt.cpp), and the time stepping loop
of `Solver::update` (src/Solver.cpp).

Numbers are real and arithmetic is exact.  The parallel loops are modelled in the order of their index; their
iterations touch different elements and a minimum does not depend on the order.
-/

namespace Hexed.TimeStep
open Hexed.Pde (charSpeed diffusivity fetchState Transport)
noncomputable section

/-- Body of the outer loop of `math::interp`, include/math.hpp 212-215. -/
def interpDim (coords : Nat → ℝ) (s : Nat × (Nat → ℝ)) (i_dim : Nat) : Nat × (Nat → ℝ) :=
  let stride := s.1 / 2
  (stride, (List.range stride).foldl (fun v i => Function.update v i (v i + coords i_dim * (v (i + stride) - v i))) s.2)

/-- `math::interp`, include/math.hpp 207-218. -/
def interp (n_dim : Nat) (values coords : Nat → ℝ) : ℝ :=
  ((List.range n_dim).foldl (interpDim coords) (2 ^ n_dim, values)).2 0

/-- `math::chebyshev_step`, src/math.cpp 104-107. -/
def chebyshevStep (n_steps i_step : Nat) : ℝ :=
  1 / (1 - Real.cos (((n_steps : ℝ) - i_step - 1 / 2) * Real.pi / n_steps))

/-- What `Max_dt` uses of a basis: `row_size`, `node`, `max_cfl` and `min_eig_diffusion`, include/Basis.hpp 14-62. -/
structure Basis where
  row_size : Nat
  node : Nat → ℝ
  max_cfl : ℝ
  min_eig : ℝ

/-- What `Max_dt` uses of a PDE at one point: which terms it has, `compute_char_speed` and `compute_diffusivity`
as functions of the variables stored there. -/
structure Terms where
  has_convection : Bool
  has_diffusion : Bool
  char_speed : (Nat → ℝ) → ℝ
  diffusivity : (Nat → ℝ) → ℝ

/-- `Navier_stokes<visc>::Pde`, include/pde.hpp 41-175. -/
def navierStokes (n_dim : Nat) (visc : Bool) (dyn_visc therm_cond : Transport) : Terms where
  has_convection := true
  has_diffusion := visc
  char_speed data := charSpeed n_dim (fetchState n_dim data)
  diffusivity data := diffusivity n_dim dyn_visc therm_cond (fetchState n_dim data)

/-- What `Max_dt` uses of an element: `vertex_time_step_scale`, `state` (by quadrature point and variable) and
`time_step_scale`, include/Kernel_element.hpp. -/
structure Elem where
  vertex_spacing : Nat → ℝ
  data : Nat → Nat → ℝ
  tss : Nat → ℝ

/-- `coords`, include/Spatial.hpp 802-805. -/
def coords (b : Basis) (n_dim i_qpoint i_dim : Nat) : ℝ :=
  b.node (i_qpoint / b.row_size ^ (n_dim - 1 - i_dim) % b.row_size)

/-- `scale`, include/Spatial.hpp 776-778 and 806-818. -/
def scaleAt (b : Basis) (n_dim : Nat) (pde : Terms) (safety_conv safety_diff : ℝ) (e : Elem) (i_qpoint : Nat) : ℝ :=
  let max_cfl_c := b.max_cfl * safety_conv
  let max_cfl_d := -2 / b.min_eig * safety_diff
  let spacing := interp n_dim e.vertex_spacing (coords b n_dim i_qpoint)
  let conv := if pde.has_convection then 0 + pde.char_speed (e.data i_qpoint) / max_cfl_c / spacing else 0
  if pde.has_diffusion then conv + pde.diffusivity (e.data i_qpoint) / max_cfl_d / spacing / spacing else conv

/-- `std::numeric_limits<double>::max()`. -/
def dblMax : ℝ := (2 ^ 53 - 1) * 2 ^ 971

/-- Body of the loop over quadrature points, include/Spatial.hpp 798-823: the time step scales and `dt`. -/
def pointStep (b : Basis) (n_dim : Nat) (pde : Terms) (is_local : Bool) (safety_conv safety_diff : ℝ) (e : Elem)
    (s : (Nat → ℝ) × ℝ) (i_qpoint : Nat) : (Nat → ℝ) × ℝ :=
  let scale := scaleAt b n_dim pde safety_conv safety_diff e i_qpoint
  if is_local then (Function.update s.1 i_qpoint (1 / scale), s.2)
  else (Function.update s.1 i_qpoint 1, min s.2 (1 / scale))

/-- Body of the loop over elements, include/Spatial.hpp 789-824. -/
def elemStep (b : Basis) (n_dim : Nat) (pde : Terms) (is_local : Bool) (safety_conv safety_diff : ℝ) (e : Elem) (dt : ℝ) :
    Elem × ℝ :=
  let s := (List.range (b.row_size ^ n_dim)).foldl (pointStep b n_dim pde is_local safety_conv safety_diff e) (e.tss, dt)
  ({ e with tss := s.1 }, s.2)

/-- The loop over elements, include/Spatial.hpp 786-824. -/
def elemLoop (b : Basis) (n_dim : Nat) (pde : Terms) (is_local : Bool) (safety_conv safety_diff : ℝ) :
    List Elem → ℝ → List Elem × ℝ
  | [], dt => ([], dt)
  | e :: es, dt =>
    let r := elemStep b n_dim pde is_local safety_conv safety_diff e dt
    let rs := elemLoop b n_dim pde is_local safety_conv safety_diff es r.2
    (r.1 :: rs.1, rs.2)

/-- `Max_dt::operator()`, include/Spatial.hpp 783-826. -/
def maxDtKernel (b : Basis) (n_dim : Nat) (pde : Terms) (is_local : Bool) (safety_conv safety_diff : ℝ) (es : List Elem) :
    List Elem × ℝ :=
  let r := elemLoop b n_dim pde is_local safety_conv safety_diff es dblMax
  (r.1, if is_local then 1 else r.2)

/-- The two kinds of elements of a `Kernel_mesh`. -/
structure Mesh where
  car_elems : List Elem
  def_elems : List Elem

/-- All of them. -/
def Mesh.elems (m : Mesh) : List Elem := m.car_elems ++ m.def_elems

/-- `COMPUTE_MAX_DT`, src/kernels_max_dt.cpp 8-12, and `Solver::max_dt`, src/Solver.cpp 122-133. -/
def maxDt (b : Basis) (n_dim : Nat) (pde : Terms) (is_local : Bool) (safety_conv safety_diff : ℝ) (m : Mesh) : Mesh × ℝ :=
  let c := maxDtKernel b n_dim pde is_local safety_conv safety_diff m.car_elems
  let d := maxDtKernel b n_dim pde is_local safety_conv safety_diff m.def_elems
  (⟨c.1, d.1⟩, min c.2 d.2)

/-- The variables of the namespace that control `Solver::update`, src/Solver.cpp 838-850. -/
structure Params where
  flow_iters : Nat
  n_cheby_flow : Nat
  max_safety : ℝ
  max_time_step : ℝ
  local_time : Bool

/-- What `Solver::update` reads and writes.  `trace` is not in the code: it lists the meshes and the time steps that
the flow was advanced with, and the time step before multiplication by the Chebyshev factor. -/
structure Run where
  mesh : Mesh
  time_step : ℝ
  flow_time : ℝ
  iteration : Nat
  trace : List (Mesh × ℝ × ℝ)

/-- The loop over `i_cheby`, src/Solver.cpp 846-875, from index `i_cheby` on, with `n` iterations left.  `advance mesh dt`
is the two-stage update and the correction of inadmissible states (lines 850-868): any function that returns the new
state of the mesh and whether it had to be `fixed`. -/
def chebyLoop (b : Basis) (n_dim : Nat) (pde : Terms) (p : Params) (advance : Mesh → ℝ → Mesh × Bool) :
    Nat → Nat → Run → Run
  | 0, _, r => r
  | n + 1, i_cheby, r =>
    let max_cheby := chebyshevStep p.n_cheby_flow (p.n_cheby_flow - 1)
    let md := maxDt b n_dim pde p.local_time (p.max_safety / max_cheby) p.max_safety r.mesh
    let nominal_dt := min md.2 p.max_time_step
    let dt := nominal_dt * chebyshevStep p.n_cheby_flow i_cheby
    let a := advance md.1 dt
    let r := { r with mesh := a.1, trace := r.trace ++ [(md.1, nominal_dt, dt)] }
    if a.2 then r
    else chebyLoop b n_dim pde p advance n (i_cheby + 1) { r with time_step := dt, flow_time := r.flow_time + dt }

/-- The loop over `i_flow`, src/Solver.cpp 839-876. -/
def flowLoop (b : Basis) (n_dim : Nat) (pde : Terms) (p : Params) (advance : Mesh → ℝ → Mesh × Bool) : Nat → Run → Run
  | 0, r => r
  | n + 1, r => flowLoop b n_dim pde p advance n (chebyLoop b n_dim pde p advance p.n_cheby_flow 0 r)

/-- `Solver::update`, src/Solver.cpp 833-886, without the timers. -/
def update (b : Basis) (n_dim : Nat) (pde : Terms) (p : Params) (advance : Mesh → ℝ → Mesh × Bool) (r : Run) : Run :=
  let r := flowLoop b n_dim pde p advance p.flow_iters r
  { r with iteration := r.iteration + 1 }

end
end Hexed.TimeStep

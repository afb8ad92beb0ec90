import Verif.ArtVisc.Model
import Verif.Admis.Model
import Verif.TimeStep.Model
set_option autoImplicit false
set_option linter.unusedVariables false

/-!
# Model of the repair of inadmissible states on a whole mesh

`Solver::fix_admissibility` with the diffusion it runs (src/Solver.cpp:961-1093), `Solver::is_admissible` (921-959), `thermo::admissible` (src/thermo.cpp:6-19) and
`max_dt_fix_therm_admis` (src/kernels_max_dt.cpp:23). The loop and the marks of elements are those of `Verif.Admis.Model`; what is left abstract there (the checks, and what a pass does to the solution) is
defined here with the kernels of `Verif.Spatial.Model`.
-/

namespace Hexed.Repair
open Hexed.Spatial Hexed.Pde Hexed.Solver Hexed.StateFile
noncomputable section

/-- What `Max_dt` uses of `Fix_therm_admis`: no convection, and `diffusivity = 1`, pde.hpp:441-443, 487-491. -/
def terms : TimeStep.Terms where
  has_convection := false
  has_diffusion := true
  char_speed _ := 0
  diffusivity _ := 1

/-- What time steps are computed from: the basis and `vertex_time_step_scale` of the elements. -/
structure Steps where
  basis : TimeStep.Basis
  spacing : Nat → Nat → ℝ

/-- `time_step_scale` as written by `max_dt_fix_therm_admis(_kernel_mesh(), opts, dt, dt, true)`, Solver.cpp:1061, Spatial.hpp:820. -/
def repairTss (nd : Nat) (T : Steps) (stability_ratio : ℝ) (w : World) (e q : Nat) : ℝ :=
  1 / TimeStep.scaleAt T.basis nd terms stability_ratio stability_ratio ⟨T.spacing e, fun q v => w.state e (v, q), fun q => w.state e (nd + 2, q)⟩ q

/-- `dt`, `linear` and `quadratic`, Solver.cpp:1062-1064. -/
def linear : ℝ := 1
def quadratic : ℝ := 1 * 1 / 8 / 0.9
/-- `step[1]` and `step[0]`, Solver.cpp:1066-1067. -/
def step1 : ℝ := (linear + √(linear * linear - 4 * quadratic)) / 2
def step0 : ℝ := quadratic / step1

/-- `apply_fta_flux_bcs`, Solver.cpp:103-115. -/
def ftaFluxBc (bs : BasisData) (m : Mesh) : World → World := runBc m.nd bs.n (m.nd + 2) true (fun _ _ => negateFlux) m.cons

/-- The body of the loop over `s : step`, Solver.cpp:1068-1077: the state is copied to the ghost faces, and one step of the diffusion is taken. `sr` is `basis.step_ratio()`, which is not used in this stage. -/
def repairStep (bs : BasisData) (m : Mesh) (sr s : ℝ) (w : World) : Option World :=
  let w := runBc m.nd bs.n (m.nd + 2) false (fun _ _ => copyState) m.cons w
  computeDiffusion (fixThermAdmis m.nd) bs (ArtVisc.readTss m w) (ftaFluxBc bs m) sr s false false false w

/-- What one pass does to the numerical data, Solver.cpp:1051-1081. `flowTss` is what `max_dt` writes to `time_step_scale` afterwards. The artificial viscosity coefficients, which are exchanged before and
after, are kept apart, in `Admis.Data`. -/
def smoothPass (bs : BasisData) (m : Mesh) (T : Steps) (stability_ratio sr : ℝ) (flowTss : World → Nat → Nat → ℝ) (w : World) : Option World :=
  (repairStep bs m sr step0 (ArtVisc.setTss bs m (repairTss m.nd T stability_ratio) w)).bind fun w =>
  (repairStep bs m sr step1 w).bind fun w => some (ArtVisc.setTss bs m flowTss w)

/-- `thermo::admissible`, thermo.cpp:6-19; `data v q` is variable `v` at point `q`. All numbers are finite here. -/
def admissible (nd n_qpoint : Nat) (data : Nat → Nat → ℝ) : Prop := ∀ q < n_qpoint, 0 < data nd q ∧ 0 < data (nd + 1) q

/-- The check of one face, Solver.cpp:944, 959. -/
def faceAdmissible (nd nfq : Nat) (face : Mem) : Prop := admissible nd nfq fun v q => face (v * nfq + q)

/-- The check of one element, Solver.cpp:940-946. -/
def elemCheck (bs : BasisData) (m : Mesh) (w : World) (e : Nat) : Admis.Check :=
  open Classical in
  if admissible m.nd (bs.n ^ m.nd) (fun v q => w.state e (v, q)) ∧ ∀ f < 2 * m.nd, faceAdmissible m.nd (bs.n ^ (m.nd - 1)) (w.buf (.elem e f) false) then .good else .bad

/-- The check of the mortar faces, Solver.cpp:949-957. -/
def refinedCheck (bs : BasisData) (m : Mesh) (w : World) : Admis.Check :=
  open Classical in
  if ∀ r ∈ m.refs, ∀ i < nFace m.nd r.str, faceAdmissible m.nd (bs.n ^ (m.nd - 1)) (w.buf (r.fine i) false) then .good else .bad

/-- The vertices of the mesh as `Admis` sees them. -/
structure Vertices (ne nv nq : Nat) where
  Vert : Type
  dec : DecidableEq Vert
  vertexOf : Fin ne → Fin nv → Vert
  hanging : List ((Fin ne × Fin nv) × List (ℝ × (Fin ne × Fin nv)))
  weight : Fin nq → Fin nv → ℝ

/-- `fix_admissibility(stability_ratio)` with all its parts, for `Admis.fix`. -/
def setting (bs : BasisData) (m : Mesh) {nv nq : Nat} (V : Vertices m.elems.length nv nq) (T : Steps) (stability_ratio sr : ℝ) (flowTss : World → Nat → Nat → ℝ) (enabled : Bool) : Admis.Setting World m.elems.length nv nq where
  Vert := V.Vert
  decVert := V.dec
  vertexOf := V.vertexOf
  hanging := V.hanging
  weight := V.weight
  elem w i := elemCheck bs m w (m.elems.get i)
  refined := refinedCheck bs m
  smooth w := (smoothPass bs m T stability_ratio sr flowTss w).getD w
  enabled := enabled

end
end Hexed.Repair

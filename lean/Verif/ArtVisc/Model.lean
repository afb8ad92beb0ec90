import Verif.Solver.Model
import Verif.StateFile.Model
import Verif.Visc.Model
import Verif.TimeStep.Model
set_option autoImplicit false
set_option linter.unusedVariables false

/-!
# Model of the smoothness-based artificial viscosity on a whole mesh (`Solver::update_art_visc_smoothness`, `Solver::diffuse_art_visc`, src/Solver.cpp)

The kernels are those of Spatial/Model.lean with the equations `Advection` and `Smooth_art_visc` of Pde/Model.lean. The variables stored at a point are, in this order: momentum, density,
energy, `time_step_scale`, bulk and Laplacian artificial viscosity, 4 forcing variables, the advected scalars (pde.hpp:15-21).

Simplifications: numbers are real numbers. Where the code would compute NaN or an infinity from the flow state or from the smoothed forcing, the model returns `none`; the denominators of `write_update`
(which involve only the local time step and parameters) are not checked. The local time steps chosen by `max_dt_advection` and `max_dt_smooth_av` are arbitrary functions of the current data. The part of the
face storage used by the LDG scheme is kept apart from the part used for the state although the advected scalars reach into it: neither is read by the other before it is written again. Stopwatches and the
flag `use_art_visc` are left out.
-/

namespace Hexed.ArtVisc
open Hexed.Spatial Hexed.Pde Hexed.Solver Hexed.StateFile
noncomputable section

/-- The argument `advect_length`, the variables looked up by Solver.cpp:431-447, 486-554 and `av_rs`. `n_cheby_av` is looked up as a `double`; here it is an integer. -/
structure Params where
  length : ℝ
  advectIters : Nat
  diffIters : Nat
  nCheby : Nat
  diffRatio : ℝ
  viscMult : ℝ
  unscaledMax : ℝ
  fsMass : ℝ
  fsEnergy : ℝ
  avRs : Nat

/-- `n_real`, Solver.cpp:545; `n_forcing` is 4 (Storage_params.hpp). -/
def nReal : Nat := 3
/-- `diff_time`, Solver.cpp:546. -/
def Params.diffTime (P : Params) : ℝ := P.diffRatio * P.length * P.length / nReal
/-- `mult`, Solver.cpp:553. -/
def Params.mult (P : Params) : ℝ := P.viscMult * P.length
/-- `us_max`, Solver.cpp:554. -/
def Params.usMax (P : Params) : ℝ := P.length * P.unscaledMax * √(2 * P.fsEnergy / P.fsMass)

/-- Which `apply_advection` a boundary condition has: `Flow_bc`'s (free stream, characteristic and outflow conditions), `Nonpenetration`'s or `No_slip`'s, Boundary_condition.cpp:24-41, 346-369, 429-448. -/
inductive AdvBc where
  | default
  | nonpenetration
  | noSlip

def AdvBc.rule (nd : Nat) : AdvBc → (Nat → ℝ) → (Nat → ℝ) → Nat → ℝ
  | .default => fun _ inside => defaultAdvection nd inside
  | .nonpenetration => nonpenAdvection nd
  | .noSlip => fun _ inside => noSlipAdvection nd inside

/-- The mesh as kernels read it now: `time_step_scale` is part of the state of elements. -/
def readTss (m : Mesh) (w : World) : Mesh := { m with elem := fun e => { m.elem e with tss := fun q => w.state e (m.nd + 2, q) } }

/-- Assign to variables of quadrature points. -/
def mapPoints (bs : BasisData) (m : Mesh) (f : Nat → Nat → (Nat → ℝ) → Nat → ℝ) (w : World) : World :=
  { w with state := fun e k => if e ∈ m.elems ∧ k.2 < bs.n ^ m.nd then f e k.2 (fun v => w.state e (v, k.2)) k.1 else w.state e k }

/-- `scale`, Solver.cpp:473, 569. -/
def scaleOf (nd : Nat) (s : Nat → ℝ) : ℝ := √(2 * s nd * s (nd + 1))

/-- Division of the momentum, Solver.cpp:469-478: `none` if `scale` is NaN or zero at some point. -/
def scaleDown (bs : BasisData) (m : Mesh) (w : World) : Option World :=
  open Classical in
  if ∀ e ∈ m.elems, ∀ q < bs.n ^ m.nd, 0 < 2 * w.state e (m.nd, q) * w.state e (m.nd + 1, q) then
    some (mapPoints bs m (fun _ _ s v => if v < m.nd then s v / scaleOf m.nd s else s v) w)
  else none

/-- `max_dt_advection` and `max_dt_smooth_av` with local time stepping, Solver.cpp:442, 496: what is written to `time_step_scale`. -/
def setTss (bs : BasisData) (m : Mesh) (tss : World → Nat → Nat → ℝ) (w : World) : World :=
  mapPoints bs m (fun e q s v => if v = m.nd + 2 then tss w e q else s v) w

/-- `Write_face` of any equation on all elements, kernels_convective.cpp:43-56. -/
def writeFaces (p : Pde) (bs : BasisData) (m : Mesh) (w : World) : World :=
  m.elems.foldl (onElem m.nd fun e state cache faces visc => ⟨state, cache, writeFace p bs m.nd state faces, visc⟩) w

/-- The body of the loop over `i`, Solver.cpp:507-519, for `i_stage` = `stage`. -/
def advectStage (bs : BasisData) (m : Mesh) (nodes : Nat → ℝ) (P : Params) (sr : ℝ) (bc : ConRec → AdvBc) (stage : Bool) (w : World) : Option World :=
  let w := runBc m.nd bs.n (m.nd + bs.n) false (fun c => (bc c).rule m.nd) m.cons w
  computeConvection (advection m.nd bs.n nodes P.length) bs (readTss m w) sr 1 stage false false w

/-- The body of the loop over `iter`, Solver.cpp:500-522. -/
def advectIter (bs : BasisData) (m : Mesh) (nodes : Nat → ℝ) (P : Params) (sr : ℝ) (bc : ConRec → AdvBc) (w : World) : Option World :=
  let p := advection m.nd bs.n nodes P.length
  let w := runProlong p bs m false false (writeFaces p bs m w)
  (advectStage bs m nodes P sr bc false w).bind (advectStage bs m nodes P sr bc true)

/-- `proj`, Solver.cpp:536-539; `orth` is `basis.orthogonal(av_rs - 1)`. -/
def proj (bs : BasisData) (nd : Nat) (orth : Nat → ℝ) (s : Nat → ℝ) : ℝ :=
  (List.range bs.n).foldl (fun proj i_proj => proj + s (nd + 9 + i_proj) * bs.weight i_proj * orth i_proj) 0

/-- The projection, Solver.cpp:527-542. -/
def project (bs : BasisData) (m : Mesh) (orth : Nat → ℝ) (w : World) : World :=
  mapPoints bs m (fun _ _ s v => if v = m.nd + 5 then proj bs m.nd orth s * proj bs m.nd orth s * 2 * s (m.nd + 1) / s m.nd else s v) w

/-- `apply_avc_diff_flux_bcs`, Solver.cpp:94-102: `Flow_bc::flux_diffusion` negates all `n_dim + 2` variables, Boundary_condition.cpp:54-60. -/
def smoothFluxBc (bs : BasisData) (m : Mesh) : World → World := runBc m.nd bs.n (m.nd + 2) true (fun _ _ => negateFlux) m.cons

/-- One smoothing step, Solver.cpp:449-452; `apply_avc_diff_bcs` (Solver.cpp:83-91) copies all `n_dim + 2` variables. -/
def smoothStep (bs : BasisData) (m : Mesh) (diff_time sr : ℝ) (nCheby i_cheby : Nat) (w : World) : Option World :=
  let s := TimeStep.chebyshevStep nCheby i_cheby
  let w := runBc m.nd bs.n (m.nd + 2) false (fun _ _ => copyState) m.cons w
  computeDiffusion (smoothArtVisc m.nd diff_time s) bs (readTss m w) (smoothFluxBc bs m) sr s false false false w

/-- `diffuse_art_visc`, Solver.cpp:428-455. The diffusion time and step of the equation do not matter for `write_face_smooth_av`. -/
def diffuse (mu kappa : Transport) (bs : BasisData) (m : Mesh) (tss : World → Nat → Nat → ℝ) (diff_time sr : ℝ) (diffIters nCheby : Nat) (w : World) : Option World :=
  let w := setTss bs m tss w
  let w := runProlong (ns m.nd false mu kappa) bs m false false (writeFaces (smoothArtVisc m.nd 1 1) bs m w)
  ((List.range diffIters).flatMap fun _ => List.range nCheby).foldlM (fun w i_cheby => smoothStep bs m diff_time sr nCheby i_cheby w) w

/-- `update_art_visc_smoothness` up to and including the smoothing, Solver.cpp:468-550. `b` is the basis, `nodes` the nodes of the advection directions (pde.hpp:281). -/
def forcing (mu kappa : Transport) (b : Basis.Nodes ℝ) (bs : BasisData) (m : Mesh) (nodes : Nat → ℝ) (P : Params) (sr : ℝ) (bc : ConRec → AdvBc) (tssA tssD : World → Nat → Nat → ℝ) (w : World) : Option World :=
  (scaleDown bs m w).bind fun w =>
  let w := setTss bs m tssA (refresh mu kappa bs m w)
  ((List.range P.advectIters).foldlM (fun w _ => advectIter bs m nodes P sr bc w) w).bind fun w =>
  ((List.range b.n).mapM fun i => Basis.orthogonal b (P.avRs - 1) i).bind fun orth =>
  diffuse mu kappa bs m tssD P.diffTime sr P.diffIters P.nCheby (project bs m (fun i => orth.getD i 0) w)

/-- The last loop of `update_art_visc_smoothness` at all points, Solver.cpp:557-574, and the square root of `resid`. -/
def finish (bs : BasisData) (m : Mesh) (P : Params) (w : World) : Option (World × ℝ) :=
  open Classical in
  let av : Nat → Nat → Option ℝ := fun e q => Visc.newAv P.usMax P.mult (w.state e (m.nd + 5 + nReal, q))
  if ∀ e ∈ m.elems, ∀ q < bs.n ^ m.nd, (av e q).isSome then
    some (mapPoints bs m (fun e q s v => if v = m.nd + 3 then (av e q).getD 0 else if v < m.nd then s v * scaleOf m.nd s else s v) w,
      √((m.elems.map fun e => ((List.range (bs.n ^ m.nd)).map fun q =>
        (w.state e (m.nd + 3, q) - (av e q).getD 0) ^ 2 * qw bs.weight bs.n m.nd q * (m.elem e).size ^ m.nd).sum).sum))
  else none

/-- `update_art_visc_smoothness`, Solver.cpp:457-582: the new data and `art_visc_residual`. -/
def update (mu kappa : Transport) (b : Basis.Nodes ℝ) (bs : BasisData) (m : Mesh) (nodes : Nat → ℝ) (P : Params) (sr : ℝ) (bc : ConRec → AdvBc) (tssA tssD : World → Nat → Nat → ℝ) (w : World) : Option (World × ℝ) :=
  (forcing mu kappa b bs m nodes P sr bc tssA tssD w).bind fun w =>
  (finish bs m P w).bind fun r => some (refresh mu kappa bs m r.1, r.2)

end
end Hexed.ArtVisc

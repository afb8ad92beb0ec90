import Mathlib.Analysis.SpecialFunctions.Pow.Real
import Mathlib.LinearAlgebra.Matrix.NonsingularInverse
import Verif.Spatial.Model
set_option autoImplicit false
set_option linter.unusedVariables false

/-!
# Model of the PDEs (include/pde.hpp, include/Transport_model.hpp) and flow boundary conditions (src/Boundary_condition.cpp)

Everything here happens at one point: a state is the function of the variable number that the code reads with some stride. Variables are
numbered as in the code: momentum 0 .. n_dim-1, mass n_dim, energy n_dim+1. Numbers are real; division by zero gives 0 here, and the
theorems that would be affected require positive mass.
-/

namespace Hexed.Pde
open Hexed.Spatial (Pde)
noncomputable section

/-- A sum over dimensions. -/
def sumN (nd : Nat) (f : Nat → ℝ) : ℝ := ((List.range nd).map f).sum

/-- `heat_rat`, pde.hpp:51. -/
def heatRat : ℝ := 7 / 5
/-- `constants::specific_gas_air`, constants.hpp:44. -/
def gasAir : ℝ := 28705287 / 100000

/-- `kin_ener` in `compute_scalars_conv`, pde.hpp:99-102. -/
def kinEner (nd : Nat) (state : Nat → ℝ) : ℝ := sumN nd (fun i => state i * state i) * (1 / 2 / state nd)
/-- `pressure`, pde.hpp:103. -/
def pressure (nd : Nat) (state : Nat → ℝ) : ℝ := (heatRat - 1) * (state (nd + 1) - kinEner nd state)

/-- `flux_conv(i_var, i_dim)` for one column `normal(·, i_dim)`, pde.hpp:106-123. -/
def fluxConv (nd : Nat) (state normal : Nat → ℝ) (i_var : Nat) : ℝ :=
  let mass_flux := sumN nd fun j => state j * normal j
  let vol_flux := mass_flux / state nd
  if i_var < nd then state i_var * vol_flux + pressure nd state * normal i_var
  else if i_var = nd then mass_flux
  else (state (nd + 1) + pressure nd state) * vol_flux

/-- `Transport_model`, Transport_model.hpp:14-27. -/
structure Transport where
  const_val : ℝ
  ref_val : ℝ
  ref_temp : ℝ
  temp_offset : ℝ

/-- `Transport_model::coefficient`, Transport_model.hpp:35-38; `sqrt_ref_temp` is `std::sqrt(ref_temp)`. -/
def Transport.coefficient (t : Transport) (sqrt_temp : ℝ) : ℝ :=
  t.const_val + t.ref_val * (sqrt_temp / √t.ref_temp) ^ 3 * (t.ref_temp + t.temp_offset) / (sqrt_temp * sqrt_temp + t.temp_offset)

/-- `Transport_model::inviscid`, Transport_model.hpp:40. -/
def Transport.inviscid : Transport := ⟨0, 0, 1, 1⟩
/-- `Transport_model::constant`, Transport_model.hpp:42. -/
def Transport.constant (value : ℝ) : Transport := ⟨value, 0, 1, 1⟩
/-- `Transport_model::sutherland`, Transport_model.hpp:47-50. -/
def Transport.sutherland (reference_value reference_temperature temperature_offset : ℝ) : Transport :=
  ⟨0, reference_value, reference_temperature, temperature_offset⟩

/-- `sqrt_temp` in `compute_scalars_diff`, pde.hpp:134. -/
def sqrtTemp (nd : Nat) (state : Nat → ℝ) : ℝ :=
  √(max ((state (nd + 1) - kinEner nd state) / state nd) 0 * (heatRat - 1) / gasAir)

/-- `veloc_grad(i, j)`, pde.hpp:149. -/
def velocGrad (nd : Nat) (state : Nat → ℝ) (gradient : Nat → Nat → ℝ) (i j : Nat) : ℝ :=
  (gradient i j - state i / state nd * gradient nd j) / state nd

/-- `stress(i, j)`, pde.hpp:150-151; `state(n_dim + 2)` is the bulk artificial viscosity. -/
def stress (nd : Nat) (dyn_visc_coef : ℝ) (state : Nat → ℝ) (gradient : Nat → Nat → ℝ) (i j : Nat) : ℝ :=
  let vg := velocGrad nd state gradient
  dyn_visc_coef * (vg i j + vg j i)
    + (abs (state (nd + 2)) * state nd - 2 / 3 * dyn_visc_coef) * sumN nd (fun k => vg k k) * (if i = j then 1 else 0)

/-- `int_ener_grad(j)`, pde.hpp:154. -/
def intEnerGrad (nd : Nat) (state : Nat → ℝ) (gradient : Nat → Nat → ℝ) (j : Nat) : ℝ :=
  -state (nd + 1) / state nd / state nd * gradient nd j + gradient (nd + 1) j / state nd
    - sumN nd fun i => state i / state nd * velocGrad nd state gradient i j

/-- `flux_diff` before the last line, pde.hpp:152-155; `state(n_dim + 3)` is the Laplacian artificial viscosity. -/
def fluxDiff0 (nd : Nat) (dyn_visc therm_cond : Transport) (state : Nat → ℝ) (gradient : Nat → Nat → ℝ) (i_var j : Nat) : ℝ :=
  let mu := dyn_visc.coefficient (sqrtTemp nd state)
  let energy_cond := therm_cond.coefficient (sqrtTemp nd state) * (heatRat - 1) / gasAir;
  -abs (state (nd + 3)) * gradient i_var j
    - (if i_var < nd then stress nd mu state gradient i_var j
       else if i_var = nd + 1 then
         sumN nd (fun i => state i / state nd * stress nd mu state gradient i j) + energy_cond * intEnerGrad nd state gradient j
       else 0)

/-- `compute_flux_diff`, pde.hpp:141-158. -/
def fluxDiff (nd : Nat) (dyn_visc therm_cond : Transport) (state : Nat → ℝ) (normal gradient : Nat → Nat → ℝ) (i_var i_dim : Nat) : ℝ :=
  sumN nd fun j => fluxDiff0 nd dyn_visc therm_cond state gradient i_var j * normal j i_dim

/-- Euclidean norm of the first `nd` entries. -/
def norm (nd : Nat) (v : Nat → ℝ) : ℝ := √(sumN nd fun i => v i * v i)

/-- `compute_char_speed`, pde.hpp:160-166. -/
def charSpeed (nd : Nat) (state : Nat → ℝ) : ℝ :=
  √(heatRat * (heatRat - 1) * state (nd + 1) / state nd) + norm nd state / state nd

/-- `compute_diffusivity`, pde.hpp:168-174. -/
def diffusivity (nd : Nat) (dyn_visc therm_cond : Transport) (state : Nat → ℝ) : ℝ :=
  let mu := dyn_visc.coefficient (sqrtTemp nd state)
  let energy_cond := therm_cond.coefficient (sqrtTemp nd state) * (heatRat - 1) / gasAir
  abs (abs (state (nd + 3))) + max (abs (abs (state (nd + 2))) + mu / state nd) (energy_cond / state nd)

/-- `fetch_state`, pde.hpp:79-84, and the offsets at pde.hpp:18-19: the state and the two artificial viscosities. -/
def fetchState (nd : Nat) (data : Nat → ℝ) (i : Nat) : ℝ :=
  if i < nd + 2 then data i else if i = nd + 2 then data (nd + 3) else data (nd + 4)

/-- `fetch_extrap_state`, pde.hpp:86-92. -/
def fetchExtrapState (nd : Nat) (data : Nat → ℝ) (i : Nat) : ℝ := if i < nd + 2 then data i else 0

/-- `Navier_stokes<visc>::Pde<n_dim, row_size>`, pde.hpp:41-175. -/
def ns (nd : Nat) (visc : Bool) (dyn_visc therm_cond : Transport) : Pde where
  hasDiff := visc
  hasConv := true
  hasSource := false
  nUpdate := nd + 2
  nExtrap := nd + 2
  fetchExtrap data := data
  writeUpdate update _ data i := if i < nd + 2 then data i + update i else data i
  fluxConv data normal i_var i_dim := fluxConv nd (fetchState nd data) (fun j => normal j i_dim) i_var
  fluxDiff data normal gradient := fluxDiff nd dyn_visc therm_cond (fetchState nd data) normal gradient
  source _ _ := 0
  faceFlux data normal := fluxConv nd (fetchExtrapState nd data) normal
  faceSpeed data := charSpeed nd (fetchExtrapState nd data)
  faceUpdate data := fetchExtrapState nd data

/-- `Advection<n_dim, row_size>`, pde.hpp:265-350; `nodes i` is `_nodes(i)`. `tss_offset` is `n_dim + 2` and `advection_offset`
`n_dim + 9`, pde.hpp:17, 21. -/
def advection (nd rs : Nat) (nodes : Nat → ℝ) (advect_length : ℝ) : Pde where
  hasDiff := false
  hasConv := true
  hasSource := true
  nUpdate := rs
  nExtrap := nd + rs
  fetchExtrap data i := if i < nd then data i else data (nd + 9 + (i - nd))
  writeUpdate update critical data i :=
    let pseudo := 1 + data (nd + 2) * 2 / advect_length
    if nd + 9 ≤ i ∧ i < nd + 9 + rs then
      (if critical then (data i + update (i - (nd + 9))) / pseudo else data i + update (i - (nd + 9)) / pseudo)
    else data i
  fluxConv data normal i_adv i_dim := nodes i_adv * sumN nd (fun j => data j * normal j i_dim) * data (nd + 9 + i_adv)
  fluxDiff _ _ _ _ _ := 0
  source _ _ := 2 / advect_length
  faceFlux data normal i_adv := nodes i_adv * sumN nd (fun j => data j * normal j) * data (nd + i_adv)
  faceSpeed data := max 1 (norm nd data)
  faceUpdate data i_adv := data (nd + i_adv)

/-- `Smooth_art_visc<n_dim, row_size>`, pde.hpp:355-431; `forcing_offset` is `n_dim + 5`. -/
def smoothArtVisc (nd : Nat) (diff_time cheby : ℝ) : Pde where
  hasDiff := true
  hasConv := false
  hasSource := true
  nUpdate := 3
  nExtrap := 3
  fetchExtrap data i := data (nd + 5 + 1 + i)
  writeUpdate update critical data i :=
    let pseudo := 1 + data (nd + 2) * cheby / diff_time
    if nd + 6 ≤ i ∧ i < nd + 9 then
      (if critical then (data i + update (i - (nd + 6))) / pseudo else data i + update (i - (nd + 6)))
    else data i
  fluxConv _ _ _ _ := 0
  fluxDiff _ normal gradient i_var i_dim := sumN nd fun j => -gradient i_var j * normal j i_dim
  source data i_var := (if i_var = 1 then √(abs (data (nd + 5 + i_var))) else abs (data (nd + 5 + i_var))) / diff_time
  faceFlux _ _ _ := 0
  faceSpeed _ := 0
  faceUpdate data := data

/-- `Fix_therm_admis<n_dim, row_size>`, pde.hpp:437-494. -/
def fixThermAdmis (nd : Nat) : Pde where
  hasDiff := true
  hasConv := false
  hasSource := false
  nUpdate := nd + 2
  nExtrap := nd + 2
  fetchExtrap data := data
  writeUpdate update _ data i := if i < nd + 2 then data i + update i else data i
  fluxConv _ _ _ _ := 0
  fluxDiff _ normal gradient i_var i_dim := sumN nd fun j => -gradient i_var j * normal j i_dim
  source _ _ := 0
  faceFlux _ _ _ := 0
  faceSpeed _ := 0
  faceUpdate data := data

/-! ## Characteristics, pde.hpp:177-256 -/

structure Characteristics where
  vals : Fin 3 → ℝ
  vecs : Matrix (Fin 3) (Fin 3) ℝ
  dir : Nat → ℝ
  mass : ℝ
  veloc : Nat → ℝ

/-- `nrml`, pde.hpp:193. -/
def nrml (nd : Nat) (dir vec : Nat → ℝ) : ℝ := sumN nd fun i => dir i * vec i
/-- `tang`, pde.hpp:194. -/
def tang (nd : Nat) (dir vec : Nat → ℝ) (i : Nat) : ℝ := vec i - dir i * nrml nd dir vec

/-- The constructor, pde.hpp:201-227. -/
def Characteristics.new (nd : Nat) (state direction : Nat → ℝ) : Characteristics :=
  let dir := fun i => direction i / norm nd direction
  let mass := state nd
  let veloc := fun i => state i / mass
  let vsq := sumN nd fun i => veloc i * veloc i
  let pres := 2 / 5 * (state (nd + 1) - 1 / 2 * mass * vsq)
  let sound_speed := √(7 / 5 * max pres 0 / mass)
  let val2 := nrml nd dir veloc
  let d_mass : ℝ := 1
  let d_veloc (sign : ℝ) := (2 * sign - 1) * sound_speed / mass * d_mass
  let d_pres := 7 / 5 * pres / mass * d_mass
  let col (sign : ℝ) : Fin 3 → ℝ := ![d_mass * val2 + mass * d_veloc sign, d_mass, d_pres / (2 / 5) + 1 / 2 * d_mass * vsq + mass * val2 * d_veloc sign]
  { vals := ![val2 - sound_speed, val2 + sound_speed, val2]
    vecs := fun i j => ![col 0 i, col 1 i, ![d_mass * val2, d_mass, 1 / 2 * d_mass * vsq] i] j
    dir := dir, mass := mass, veloc := veloc }

/-- `decomp(state)`, pde.hpp:234-255: entry (i_var, j). `fact.solve` is modelled as multiplication by the inverse matrix; what the
least-squares solution is for a singular matrix is not modelled. -/
def Characteristics.decomp (nd : Nat) (c : Characteristics) (state : Nat → ℝ) (i_var : Nat) (j : Fin 3) : ℝ :=
  let mmtm_correction := fun i => tang nd c.dir state i - state nd * tang nd c.dir c.veloc i
  let corr_ener := sumN nd fun i => c.veloc i * mmtm_correction i
  let state_1d : Fin 3 → ℝ := ![nrml nd c.dir state, state nd, state (nd + 1) - corr_ener]
  let eig_basis := c.vecs⁻¹.mulVec state_1d
  let eig_decomp (i j : Fin 3) := c.vecs i j * eig_basis j
  if i_var < nd then
    c.dir i_var * eig_decomp 0 j + tang nd c.dir c.veloc i_var * eig_basis j + (if j = 2 then mmtm_correction i_var else 0)
  else if i_var = nd then eig_decomp 1 j
  else eig_decomp 2 j + (if j = 2 then corr_ener else 0)

/-! ## Flow boundary conditions at one face point

`inside` and the result are functions of the variable number: `in_f[i_var*nfq + i_qpoint]`, `gh_f[i_var*nfq + i_qpoint]`. -/

/-- `apply_char`, Boundary_condition.cpp:82-95. -/
def applyChar (nd : Nat) (state normal : Nat → ℝ) (sign : ℝ) (inside outside : Nat → ℝ) (i_var : Nat) : ℝ :=
  let ch := Characteristics.new nd state normal
  (List.ofFn fun i_eig : Fin 3 => if sign * ch.vals i_eig > 0 then ch.decomp nd outside i_var i_eig else ch.decomp nd inside i_var i_eig).sum

/-- The limiting in `Riemann_invariants::apply_state`, Boundary_condition.cpp:126-130. -/
def riemannLimit (nd : Nat) (state inside : Nat → ℝ) (i_var : Nat) : ℝ :=
  let mass := max (state nd) (inside nd / 2)
  let kin_ener := 1 / 2 * (sumN nd fun i => state i * state i) / mass
  let inside_kin_ener := 1 / 2 * (sumN nd fun i => inside i * inside i) / inside nd
  if i_var < nd then state i_var
  else if i_var = nd then mass
  else max (kin_ener + max (state (nd + 1) - kin_ener) ((inside (nd + 1) - inside_kin_ener) / 2)) 0

/-- `Riemann_invariants::apply_state`, Boundary_condition.cpp:97-141; `sign` is `1 - 2*inside_face_sign()`. -/
def riemannState (nd : Nat) (fs normal : Nat → ℝ) (sign : ℝ) (inside : Nat → ℝ) : Nat → ℝ :=
  riemannLimit nd (applyChar nd inside normal sign inside fs) inside

/-- `Riemann_invariants::apply_flux`, Boundary_condition.cpp:143-182. -/
def riemannFlux (nd : Nat) (cache normal : Nat → ℝ) (sign : ℝ) (inside : Nat → ℝ) : Nat → ℝ :=
  applyChar nd cache normal sign (fun _ => 0) inside

/-- `Pressure_outflow::apply_state`, Boundary_condition.cpp:184-213; `sign` is `2*inside_face_sign() - 1`. -/
def pressureOutflow (nd : Nat) (pres_spec : ℝ) (normal : Nat → ℝ) (sign : ℝ) (inside : Nat → ℝ) (i_var : Nat) : ℝ :=
  let nrml_veloc := sumN nd (fun i => inside i * normal i) / inside nd / norm nd normal
  let kin_ener := 1 / 2 * (sumN nd fun i => inside i * inside i) / inside nd
  let pres := max (2 / 5 * (inside (nd + 1) - kin_ener)) 0
  let sound_speed := √(7 / 5 * pres / inside nd)
  if i_var = nd + 1 then (if nrml_veloc * sign < sound_speed then pres_spec / (2 / 5) + kin_ener else inside i_var) else inside i_var

/-- `reflect_normal`, Boundary_condition.cpp:302-317. -/
def reflectNormal (nd : Nat) (normal gh : Nat → ℝ) (i_var : Nat) : ℝ :=
  let dot := sumN nd fun i => gh i * normal i
  let norm_sq := sumN nd fun i => normal i * normal i
  if i_var < nd then gh i_var - 2 * dot * normal i_var / norm_sq else gh i_var

/-- `Nonpenetration::apply_state`, Boundary_condition.cpp:319-331. -/
def nonpenState (nd : Nat) (normal inside : Nat → ℝ) : Nat → ℝ := reflectNormal nd normal inside
/-- `Nonpenetration::apply_flux`, Boundary_condition.cpp:333-344. -/
def nonpenFlux (nd : Nat) (normal inside : Nat → ℝ) : Nat → ℝ := reflectNormal nd normal fun i => -inside i
/-- `Nonpenetration::apply_advection`, Boundary_condition.cpp:346-369. -/
def nonpenAdvection (nd : Nat) (normal inside : Nat → ℝ) (i_var : Nat) : ℝ :=
  let dot := sumN nd fun i => inside i * normal i
  let norm_sq := sumN nd fun i => normal i * normal i
  if i_var < nd then inside i_var - 2 * dot * normal i_var / norm_sq else inside i_var

/-- `No_slip::apply_state`, Boundary_condition.cpp:381-400; `ghost_energy` is the thermal boundary condition's. -/
def noSlipState (nd : Nat) (ghost_energy : (Nat → ℝ) → ℝ) (inside : Nat → ℝ) (i_var : Nat) : ℝ :=
  if i_var < nd then -inside i_var
  else if i_var = nd then inside i_var
  else ghost_energy inside ^ 2 / inside (nd + 1)

/-- The average state primed in `state_cache`, Boundary_condition.cpp:396-399. -/
def noSlipCache (nd : Nat) (ghost_energy : (Nat → ℝ) → ℝ) (inside : Nat → ℝ) (i_var : Nat) : ℝ :=
  (noSlipState nd ghost_energy inside i_var + inside i_var) / 2

/-- `No_slip::apply_flux`, Boundary_condition.cpp:402-427; `flux_sign` is `2*inside_face_sign() - 1`. -/
def noSlipFlux (nd : Nat) (coercion : ℝ) (ghost_heat_flux : (Nat → ℝ) → ℝ → ℝ) (cache normal : Nat → ℝ) (flux_sign : ℝ) (inside : Nat → ℝ) (i_var : Nat) : ℝ :=
  let nrm := norm nd normal
  if i_var < nd then inside i_var
  else if i_var = nd then -inside i_var
  else coercion * (nrm * flux_sign * ghost_heat_flux cache (inside i_var * flux_sign / nrm) - inside i_var) + inside i_var

/-- `No_slip::apply_advection`, Boundary_condition.cpp:429-448. -/
def noSlipAdvection (nd : Nat) (inside : Nat → ℝ) (i_var : Nat) : ℝ := if i_var < nd then -inside i_var else inside i_var

/-- `Prescribed_energy::ghost_energy`, Boundary_condition.hpp:159; `state.size() - 2` is the mass. -/
def prescribedEnergy (nd : Nat) (energy_per_mass : ℝ) (state : Nat → ℝ) : ℝ := energy_per_mass * state nd
/-- `Prescribed_energy::ghost_heat_flux`, Boundary_condition.hpp:160. -/
def prescribedEnergyFlux (_ : Nat → ℝ) (heat_flux : ℝ) : ℝ := heat_flux
/-- `Prescribed_heat_flux::ghost_energy` and `Thermal_equilibrium::ghost_energy`, Boundary_condition.hpp:170, 184. -/
def keepEnergy (nd : Nat) (state : Nat → ℝ) : ℝ := state (nd + 1)
/-- `Prescribed_heat_flux::ghost_heat_flux`, Boundary_condition.hpp:171. -/
def prescribedHeatFlux (heat_flux : ℝ) (_ : Nat → ℝ) (_ : ℝ) : ℝ := heat_flux

/-- `Flow_bc::apply_advection`, Boundary_condition.cpp:24-41. -/
def defaultAdvection (nd : Nat) (inside : Nat → ℝ) (i_var : Nat) : ℝ := if i_var < nd then inside i_var else 2 - inside i_var
/-- `Freestream::apply_state`, Boundary_condition.cpp:66-76. -/
def freestreamState (fs : Nat → ℝ) (_ : Nat → ℝ) : Nat → ℝ := fs
/-- `Outflow::apply_flux`, `Pressure_outflow::apply_flux` and `Flow_bc::flux_diffusion`, Boundary_condition.cpp:54-60, 216-223, 470-477. -/
def negateFlux (inside : Nat → ℝ) (i : Nat) : ℝ := -inside i
/-- `copy_state` at one point, Boundary_condition.cpp:12-23. -/
def copyState (inside : Nat → ℝ) : Nat → ℝ := inside

end
end Hexed.Pde

import Verif.Stats.Model
import Verif.Solver.Model
set_option autoImplicit false
set_option linter.unusedVariables false

/-!
# Quantities reported on surfaces: stress, heat flux, aerodynamic force (C79)

Simplifications: floating point numbers are real numbers. An expression that divides by zero (not a number, or infinite) is the outcome
`none`; so is reading a variable that does not exist. HIL expressions of Case.hil are transcribed: parsing and evaluating HIL is the
subject of the model in `Hil`. The only types of variables are numbers.
-/

namespace Hexed.Force
open Hexed.Pde Hexed.Tensor
noncomputable section

/-- What is read of a `Boundary_connection`: `inside_face_sign()`, `surface_normal()`, `inside_face(false)` and `flux_cache()`. -/
structure Face where
  sign : Bool
  normal : Nat → ℝ
  state : Nat → ℝ
  flux : Nat → ℝ

/-- `nrml_sign`, hil_properties.cpp:59, Boundary_func.cpp:24, Surface_func.cpp:17. -/
def Face.nrmlSign (f : Face) : ℝ := 1 - 2 * (if f.sign then 1 else 0)
/-- The normal at a point, hil_properties.cpp:60-63. -/
def Face.nrml (nfq : Nat) (f : Face) (q i : Nat) : ℝ := f.normal (i * nfq + q)
/-- `nrml_mag`, hil_properties.cpp:64, Boundary_func.cpp:25-30. -/
def Face.mag (nd nfq : Nat) (f : Face) (q : Nat) : ℝ := norm nd (f.nrml nfq q)

/-- `Viscous_stress::operator()`, Boundary_func.cpp:19-39. -/
def viscousStress (nd nfq : Nat) (f : Face) (q i : Nat) : ℝ :=
  let ref_stress := -f.flux (i * nfq + q)
  if 1 / 1000 < f.mag nd nfq q then ref_stress * f.nrmlSign / f.mag nd nfq q else 0

/-- `Heat_flux::operator()`, Boundary_func.cpp:41-57. -/
def heatFlux (nd nfq : Nat) (f : Face) (q : Nat) : ℝ :=
  let ref_flux := f.flux ((nd + 1) * nfq + q)
  if 1 / 1000 < f.mag nd nfq q then ref_flux * f.nrmlSign / f.mag nd nfq q else 0

/-- The normal that a `Surface_func` is given, Surface_func.cpp:16-25. -/
def surfaceNormal (nd nfq : Nat) (f : Face) (q : Nat) : Option (Nat → ℝ) :=
  let normal := fun i => f.nrml nfq q i * f.nrmlSign
  let nrml_mag := norm nd normal
  if nrml_mag = 0 then none else some fun i => normal i / nrml_mag

/-- `Pressure_stress::operator()`, Surface_func.cpp:31-49, called by Surface_func.cpp:26-28. -/
def pressureStress (hr : ℝ) (nd nfq : Nat) (f : Face) (q : Nat) : Option (Nat → ℝ) :=
  (surfaceNormal nd nfq f q).bind fun normal =>
    let state := fun v => f.state (v * nfq + q)
    let momentum_sq := sumN nd fun i => state i * state i
    let normal_mag := √(sumN nd fun i => normal i * normal i)
    if state nd = 0 ∨ normal_mag = 0 then none
    else
      let pres := (hr - 1) * (state (nd + 1) - 1 / 2 * momentum_sq / state nd)
      some fun i => -normal i * pres / normal_mag

/-- Numeric variables of a `Namespace`. -/
abbrev Vars := String → Option ℝ

/-- `space.assign(name, x)`. -/
def Vars.assign (s : Vars) (name : String) (x : ℝ) : Vars := fun n => if n = name then some x else s n

/-- `name + std::to_string(i)`. -/
def suffixed (name : String) (i : Nat) : String := name ++ toString i

/-- `viscous` in `hil_properties::surface`, hil_properties.cpp:55. -/
def isViscous (viscosity_model conductivity_model : Option String) : Option Bool :=
  viscosity_model.bind fun v => if v ≠ "" then some true else conductivity_model.bind fun c => some (c ≠ "")

/-- `hil_properties::surface`, hil_properties.cpp:53-88, with `n_var` = `n_dim` + 2. -/
def hilSurface (nd nfq : Nat) (viscous : Bool) (f : Face) (q : Nat) (space : Vars) : Option Vars :=
  let nrml_mag := f.mag nd nfq q
  let flux := fun v => let ref_flux := -f.flux (v * nfq + q); if 1 / 1000 < nrml_mag ∧ viscous = true then ref_flux * f.nrmlSign / nrml_mag else 0
  let state := fun v => f.state (v * nfq + q)
  if nrml_mag = 0 then none
  else
    let s := (List.range nd).foldl (fun (s : Vars) i =>
      ((s.assign (suffixed "normal" i) (f.nrml nfq q i * f.nrmlSign / nrml_mag)).assign (suffixed "visc_stress" i) (flux i)).assign (suffixed "momentum" i) (state i)) space
    let s := ((List.range 3).drop nd).foldl (fun (s : Vars) i =>
      ((s.assign (suffixed "normal" i) 0).assign (suffixed "visc_stress" i) 0).assign (suffixed "momentum" i) 0) s
    some ((((s.assign "density" (state nd)).assign "energy" (state (nd + 1))).assign "mass_flux" (flux nd)).assign "heat_flux" (flux (nd + 1)))

/-- Division in an expression. -/
def quot (a b : ℝ) : Option ℝ := if b = 0 then none else some (a / b)
/-- `sqrt(a)` and `a^.5` in an expression. -/
def root (a : ℝ) : Option ℝ := if a < 0 then none else some (√a)

/-- `velocity_expr`, Case.hil:12. -/
def velocityExpr (s : Vars) : Option Vars :=
  [0, 1, 2].foldlM (fun (s : Vars) i => (s (suffixed "momentum" i)).bind fun m => (s "density").bind fun r => (quot m r).bind fun v =>
    some (s.assign (suffixed "velocity" i) v)) s

/-- `speed_expr`, Case.hil:13. -/
def speedExpr (s : Vars) : Option Vars :=
  (s "velocity0").bind fun a => (s "velocity1").bind fun b => (s "velocity2").bind fun c => (root (a ^ 2 + b ^ 2 + c ^ 2)).bind fun v =>
    some (s.assign "speed" v)

/-- `pressure_expr`, Case.hil:14. -/
def pressureExpr (s : Vars) : Option Vars :=
  (s "heat_rat").bind fun hr => (s "energy").bind fun e => (s "density").bind fun r => (s "speed").bind fun v =>
    some (s.assign "pressure" ((hr - 1) * (e - 1 / 2 * r * v ^ 2)))

/-- `stress_expr`, Case.hil:19. -/
def stressExpr (s : Vars) : Option Vars :=
  [0, 1, 2].foldlM (fun (s : Vars) i => (s "pressure").bind fun p => (s (suffixed "normal" i)).bind fun n => (s (suffixed "visc_stress" i)).bind fun v =>
    some (s.assign (suffixed "stress" i) (-p * n + v))) s

/-- The values of the named variables, `Struct_expr::eval`, Struct_expr.cpp. -/
def collect (names : List String) (s : Vars) : Option (Vec ℝ) :=
  (names.foldlM (fun (l : List ℝ) n => (s n).bind fun x => some (l ++ [x])) []).bind fun l => some ⟨l.length, fun i => l.getD i 0⟩

/-- The names of `integrand_surface` in `compute_force`, Case.hil:31. -/
def forceNames : List String := ["velocity0", "velocity1", "velocity2", "speed", "pressure", "stress0", "stress1", "stress2"]

/-- `integrand_surface` of `compute_force`, Case.hil:31, evaluated at a point by `Boundary_expr`, Boundary_func.cpp:11-17. -/
def forceIntegrand (nd nfq : Nat) (viscous : Bool) (space : Vars) (f : Face) (q : Nat) : Option (Vec ℝ) :=
  (hilSurface nd nfq viscous f q space).bind fun s => (velocityExpr s).bind fun s => (speedExpr s).bind fun s => (pressureExpr s).bind fun s =>
    (stressExpr s).bind fun s => collect forceNames s

/-- `integrand_surface` of `compute_heating`, Case.hil:62. -/
def heatIntegrand (nd nfq : Nat) (viscous : Bool) (space : Vars) (f : Face) (q : Nat) : Option (Vec ℝ) :=
  (hilSurface nd nfq viscous f q space).bind fun s => collect ["heat_flux"] s

open Classical in
/-- `integrate_surface`, Case.cpp:466-473: `Solver::integral_surface` of an expression; a value that is not a number anywhere on the
surface makes the integral not a number. -/
def integrate (b : Basis.Nodes ℝ) (u : Nat → ℝ) (nd nv : Nat) (ids : List Nat) (con : Nat → Stats.BoundCon) (val : Nat → Nat → Option (Vec ℝ)) (sn : Nat) : Option (Vec ℝ) :=
  if ∀ c ∈ ids, (con c).bc = sn → ∀ q < b.n ^ (nd - 1), (val c q).isSome then
    Stats.integralSurface b u nd nv ids con (fun c q => (val c q).getD ⟨nv, fun _ => 0⟩) sn
  else none

/-- Case.hil:33-35; `F` are the integrals of the stresses. -/
def setForces (F : Nat → ℝ) (s : Vars) : Vars := ((s.assign "force0" (F 0)).assign "force1" (F 1)).assign "force2" (F 2)

/-- What the components are computed from: the forces and the direction of the freestream. -/
def readForces (s : Vars) : Option ((ℝ × ℝ × ℝ) × (ℝ × ℝ × ℝ)) :=
  (s "force0").bind fun f0 => (s "force1").bind fun f1 => (s "force2").bind fun f2 =>
    (s "freestream_direction0").bind fun d0 => (s "freestream_direction1").bind fun d1 => (s "freestream_direction2").bind fun d2 => some ((f0, f1, f2), (d0, d1, d2))

/-- Case.hil:36-38. -/
def dragStep (s : Vars) : Option Vars :=
  (readForces s).bind fun x => some (((s.assign "drag" (x.1.1 * x.2.1 + x.1.2.1 * x.2.2.1 + x.1.2.2 * x.2.2.2)).assign "lift" 0).assign "side_force" 0)

/-- `case2`, Case.hil:40. -/
def case2 (s : Vars) : Option Vars := (readForces s).bind fun x => some (s.assign "lift" (x.1.2.1 * x.2.1 - x.1.1 * x.2.2.1))

/-- `case3`, Case.hil:41-45. -/
def case3 (s : Vars) : Option Vars :=
  (readForces s).bind fun x => (root (x.2.1 ^ 2 + x.2.2.1 ^ 2)).bind fun horiz_norm =>
    (quot (x.1.1 * x.2.1 + x.1.2.1 * x.2.2.1) horiz_norm).bind fun y => (quot (x.1.2.1 * x.2.1 - x.1.1 * x.2.2.1) horiz_norm).bind fun z =>
      some (((s.assign "horiz_norm" horiz_norm).assign "lift" (x.1.2.2 * horiz_norm - y * x.2.2.2)).assign "side_force" z)

/-- `$$({case} + n_dim)`, Case.hil:46: the macro `case1` (which does nothing, Case.hil:39), `case2` or `case3`. -/
def caseStep (nd : Nat) (s : Vars) : Option Vars := if nd = 1 then some s else if nd = 2 then case2 s else if nd = 3 then case3 s else none

/-- Case.hil:47, 48 and 49. -/
def coefStep (name : String) (s : Vars) : Option Vars :=
  (s name).bind fun x => (s "freestream_density").bind fun rho => (s "freestream_speed").bind fun V => (quot x (1 / 2 * rho * V ^ 2)).bind fun y => some (s.assign (name ++ "_coef") y)

/-- `compute_force` after `integrate_surface`, Case.hil:33-49. -/
def computeForce (nd : Nat) (F : Nat → ℝ) (s : Vars) : Option Vars :=
  (dragStep (setForces F s)).bind fun s => (caseStep nd s).bind fun s => (coefStep "drag" s).bind fun s => (coefStep "lift" s).bind fun s => coefStep "side_force" s

end
end Hexed.Force

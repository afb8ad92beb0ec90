import Verif.Flow.Model
import Mathlib.Analysis.SpecialFunctions.Complex.Arg
import Mathlib.Analysis.SpecialFunctions.Log.Basic
set_option autoImplicit false
set_option linter.unusedVariables false

/-!
# Analytic flow fields for initial conditions and verification (C82)

Simplifications: floating point numbers are real numbers. The outcome `none` is a value that is not a number or infinite, an access past
the end of a vector, or an exception. HIL expressions of Case.hil are transcribed: parsing and evaluating HIL is the subject of `Hil`.
-/

namespace Hexed.Exact
open Hexed.Force Hexed.Flow
noncomputable section

/-- Variables that the expressions of the vortex read, besides position and time. -/
structure Vortex where
  freestream0 : ℝ
  freestream1 : ℝ
  freestream2 : ℝ
  freestream3 : ℝ
  heat_rat : ℝ
  vortex_nondim_veloc : ℝ
  vortex_argmax_radius : ℝ

/-- `vortex_nondim_veloc` and `vortex_argmax_radius` as preset in Case.hil:4, 69-70, with the given freestream. -/
def Vortex.preset (f0 f1 f2 f3 : ℝ) : Vortex := ⟨f0, f1, f2, f3, 7 / 5, 3 / 10, 1 / 10⟩

namespace Vortex
variable (e : Vortex) (time pos0 pos1 : ℝ)

/-- `freestream_spec_int_ener`, Case.hil:67. -/
def specIntEner : ℝ := e.freestream3 / e.freestream2 - 1 / 2 * (e.freestream0 ^ 2 + e.freestream1 ^ 2) / e.freestream2 ^ 2
/-- `freestream_sound_speed_expr`, Case.hil:68. -/
def soundSpeed : ℝ := √(e.heat_rat * (e.heat_rat - 1) * e.specIntEner)
/-- `vortex_gaussian`, Case.hil:71. -/
def gaussian : ℝ :=
  e.vortex_nondim_veloc * Real.exp ((1 - ((pos0 - e.freestream0 / e.freestream2 * time) ^ 2 + (pos1 - e.freestream1 / e.freestream2 * time) ^ 2) / e.vortex_argmax_radius ^ 2) / 2)
/-- `vortex_scalar`, Case.hil:72. -/
def scalar : ℝ := 1 - (e.heat_rat - 1) / 2 * e.gaussian time pos0 pos1 ^ 2
/-- `vortex_mass`, Case.hil:75. -/
def mass : ℝ := e.freestream2 * e.scalar time pos0 pos1 ^ (1 / (e.heat_rat - 1))
/-- `vortex_momentum0`, Case.hil:73. -/
def momentum0 : ℝ := (e.freestream0 / e.freestream2 - pos1 / e.vortex_argmax_radius * e.gaussian time pos0 pos1 * e.soundSpeed) * e.mass time pos0 pos1
/-- `vortex_momentum1`, Case.hil:74. -/
def momentum1 : ℝ := (e.freestream1 / e.freestream2 + pos0 / e.vortex_argmax_radius * e.gaussian time pos0 pos1 * e.soundSpeed) * e.mass time pos0 pos1
/-- `vortex_energy`, Case.hil:76. -/
def energy : ℝ :=
  e.specIntEner * e.scalar time pos0 pos1 * e.mass time pos0 pos1 + 1 / 2 * (e.momentum0 time pos0 pos1 ^ 2 + e.momentum1 time pos0 pos1 ^ 2) / e.mass time pos0 pos1
/-- `vortex`, Case.hil:77-82. Numbers that would be divided by zero, and negative numbers to be raised to a power, are excluded by the hypotheses of theorems. -/
def state (i : Nat) : ℝ :=
  if i = 0 then e.momentum0 time pos0 pos1 else if i = 1 then e.momentum1 time pos0 pos1 else if i = 2 then e.mass time pos0 pos1 else e.energy time pos0 pos1

end Vortex

/-- `std::atan2(y, x)`. -/
def atan2 (y x : ℝ) : ℝ := Complex.arg ⟨x, y⟩

/-- The velocity of `Doublet::operator()`, Spacetime_func.cpp:63-71 and 80-90. -/
def doubletVeloc (f0 f1 rho l0 l1 radius p0 p1 : ℝ) : ℝ × ℝ :=
  let v0 := f0 / rho
  let v1 := f1 / rho
  let freestream_speed := √(0 + v0 * v0 + v1 * v1)
  let angle_of_attack := atan2 v1 v0
  let r0 := p0 - l0
  let r1 := p1 - l1
  let pos_magnitude := √(r0 * r0 + r1 * r1)
  let pos_angle := atan2 r1 r0
  let radius_ratio := radius * radius / (pos_magnitude * pos_magnitude)
  let veloc_radial := (1 - radius_ratio) * freestream_speed * Real.cos (pos_angle - angle_of_attack)
  let veloc_tangential := -(1 + radius_ratio) * freestream_speed * Real.sin (pos_angle - angle_of_attack)
  (veloc_radial * Real.cos pos_angle - veloc_tangential * Real.sin pos_angle, veloc_radial * Real.sin pos_angle + veloc_tangential * Real.cos pos_angle)

/-- `Doublet::operator()`, Spacetime_func.cpp:60-100, for a freestream of `n` + 2 variables (`n` dimensions) at a position that is not the singular point. -/
def doublet (n : Nat) (freestream : Nat → ℝ) (hr l0 l1 radius p0 p1 : ℝ) : Option (Nat → ℝ) :=
  let n_v := n + 2
  let rho := freestream (n_v - 2)
  if n < 2 ∨ rho = 0 ∨ (p0 = l0 ∧ p1 = l1) then none
  else
    let v0 := freestream 0 / rho
    let v1 := freestream 1 / rho
    let freestream_speed := √(0 + v0 * v0 + v1 * v1)
    let pres := (hr - 1) * (freestream (n_v - 1) - 1 / 2 * freestream_speed * freestream_speed * rho)
    let stag_enth_per_mass := (freestream (n_v - 1) + pres) / rho
    let free_enth_per_mass := stag_enth_per_mass - 1 / 2 * freestream_speed * freestream_speed
    let veloc := doubletVeloc (freestream 0) (freestream 1) rho l0 l1 radius p0 p1
    let kin_ener_per_mass := 1 / 2 * (veloc.1 * veloc.1 + veloc.2 * veloc.2)
    let enth_per_mass := stag_enth_per_mass - kin_ener_per_mass
    (quot enth_per_mass free_enth_per_mass).bind fun r => (quot 1 (hr - 1)).bind fun e => (power r e).bind fun y => (quot enth_per_mass hr).bind fun h =>
      let mass := rho * y
      some fun i => if i = 0 then veloc.1 * mass else if i = 1 then veloc.2 * mass else if i = n_v - 2 then mass else if i = n_v - 1 then mass * (h + kin_ener_per_mass) else freestream i

/-- `Sod::operator()`, Spacetime_func.cpp:102-118. -/
def sod (hr : ℝ) (pos : List ℝ) : Option (List ℝ) :=
  (at? pos 0).bind fun x =>
    let mass : ℝ := if x < 1 / 2 then 1 else 125 / 1000
    let pres : ℝ := if x < 1 / 2 then 1 else 1 / 10
    (quot pres (hr - 1)).bind fun e => some (pos.map (fun _ => 0) ++ [mass] ++ [e])

/-- `Spatial_gaussian`, Spacetime_func.cpp:120-134. -/
def spatialGaussian (dev pos : List ℝ) : Option (List ℝ) :=
  if dev = [] then none
  else ((List.range pos.length).foldlM (fun (r : ℝ) i =>
    (at? pos i).bind fun x => (at? dev (min i (dev.length - 1))).bind fun d => (quot x d).bind fun y => some (r + y * y)) 0).bind fun r => some [Real.exp (-r / 2)]

/-- `Annular_diffusion_test::operator()`, Spacetime_func.cpp:140-148. -/
def annular (val_scale rad_scale ener : ℝ) (pos : List ℝ) : Option (List ℝ) :=
  let radius_sq := (pos.map fun p => p * p).sum
  (quot (√radius_sq) rad_scale).bind fun y => if y ≤ 0 then none else some (pos.map (fun _ => 0) ++ [val_scale * Real.log y] ++ [ener])

/-- `Linear::operator()`, Spacetime_func.cpp:49-53. -/
def linear (coefs pos : List ℝ) : List ℝ :=
  let min_size := min coefs.length pos.length
  [(List.zipWith (fun c p => c * p) (coefs.take min_size) (pos.take min_size)).sum]

/-- `Random_func::operator()`, Spacetime_func.cpp:40-47, where `rand i` is the random number drawn for variable `i`. -/
def random (m v : List ℝ) (gran : Nat) (rand : Nat → Nat) : Option (List ℝ) :=
  (List.range m.length).mapM fun i => (at? m i).bind fun mi => (at? v i).bind fun vi => if gran = 0 then none else some (mi + ((rand i % gran : Nat) : ℝ) * vi / 2 / gran)

end
end Hexed.Exact

import Verif.Force.Model
import Verif.Atmos.Model
import Mathlib.Analysis.SpecialFunctions.Trigonometric.Basic
set_option autoImplicit false
set_option linter.unusedVariables false

/-!
# The freestream of a case (C80)

Simplifications: floating point numbers are real numbers; the only type of variables is that of numbers. `none` is an exception (a failed
assertion or an optional without value), or a value that is not a number.
-/

namespace Hexed.Free
open Hexed.Force Hexed.Pde
noncomputable section

/-- `Case::_get_vector`, Case.cpp:24-32. -/
def getVector (s : Vars) (name : String) (size : Nat) : Option (Nat → ℝ) :=
  if (List.range size).all fun i => (s (suffixed name i)).isSome then some fun i => (s (suffixed name i)).getD 0 else none

/-- `Case::_set_vector`, Case.cpp:33-38. -/
def setVector (s : Vars) (name : String) (size : Nat) (vec : Nat → ℝ) : Vars :=
  (List.range size).foldl (fun (s : Vars) i => s.assign (suffixed name i) (vec i)) s

/-- `has_value() + … == n`, Case.cpp:179 and 186. -/
def count (s : Vars) (names : List String) : Nat := (names.map fun n => if (s n).isSome then 1 else 0).sum

/-- Case.cpp:173-178. -/
def altitudeStep (s : Vars) : Option Vars :=
  if (s "altitude").isSome then
    if (s "freestream_temperature").isSome then none
    else (s "altitude").bind fun alt => (s "temperature_offset").bind fun off => (Atmos.geom alt off).bind fun dens_pres =>
      some ((s.assign "freestream_density" dens_pres.1).assign "freestream_pressure" dens_pres.2)
  else some s

/-- Case.cpp:181-185, where density is given. -/
def withDensity (s : Vars) (rho : ℝ) : Option Vars :=
  if (s "freestream_pressure").isSome then
    (s "freestream_pressure").bind fun p => (quot p (Atmos.gasAir * rho)).bind fun t => some (s.assign "freestream_temperature" t)
  else (s "freestream_temperature").bind fun t => some (s.assign "freestream_pressure" (rho * Atmos.gasAir * t))

/-- Case.cpp:185, where it is not. -/
def withoutDensity (s : Vars) : Option Vars :=
  (s "freestream_pressure").bind fun p => (s "freestream_temperature").bind fun t => (quot p (Atmos.gasAir * t)).bind fun rho => some (s.assign "freestream_density" rho)

/-- Case.cpp:179-185. -/
def thermoStep (s : Vars) : Option Vars :=
  if count s ["freestream_density", "freestream_pressure", "freestream_temperature"] = 2 then
    if (s "freestream_density").isSome then (s "freestream_density").bind fun rho => withDensity s rho else withoutDensity s
  else none

/-- `normalized()` of a vector of Eigen: a vector of length zero is returned as it is. -/
def normalized (nd : Nat) (v : Nat → ℝ) (i : Nat) : ℝ := if 0 < sumN nd (fun j => v j * v j) then v i / √(sumN nd fun j => v j * v j) else v i

/-- `Eigen::Rotation2D(a)` applied to a vector. -/
def rotate2 (a : ℝ) (v : Nat → ℝ) (i : Nat) : ℝ :=
  if i = 0 then Real.cos a * v 0 - Real.sin a * v 1 else Real.sin a * v 0 + Real.cos a * v 1
/-- `Eigen::AngleAxis(a, Unit(1))` applied to a vector. -/
def rotateY (a : ℝ) (v : Nat → ℝ) (i : Nat) : ℝ :=
  if i = 0 then Real.cos a * v 0 + Real.sin a * v 2 else if i = 1 then v 1 else -Real.sin a * v 0 + Real.cos a * v 2
/-- `Eigen::AngleAxis(a, Unit(2))` applied to a vector. -/
def rotateZ (a : ℝ) (v : Nat → ℝ) (i : Nat) : ℝ :=
  if i = 0 then Real.cos a * v 0 - Real.sin a * v 1 else if i = 1 then Real.sin a * v 0 + Real.cos a * v 1 else v 2

/-- Case.cpp:199-207. -/
def angles (nd : Nat) (s : Vars) : Option (Nat → ℝ) :=
  let unit : Nat → ℝ := fun i => if i = 0 then 1 else 0
  if nd = 2 then (s "attack").bind fun a => some (rotate2 a unit)
  else if nd = 3 then (s "attack").bind fun a => (s "sideslip").bind fun b => some (rotateZ b (rotateY (-a) unit))
  else some unit

/-- Case.cpp:198-208. -/
def direction (nd : Nat) (s : Vars) : Option (Nat → ℝ) :=
  if (s "freestream_direction0").isSome then (getVector s "freestream_direction" nd).bind fun v => some (normalized nd v) else angles nd s

/-- Case.cpp:195-197, where the speed of sound is known. -/
def speedStep (s : Vars) (c : ℝ) : Option Vars :=
  if (s "freestream_speed").isSome then (s "freestream_speed").bind fun v => (quot v c).bind fun m => some (s.assign "freestream_mach" m)
  else (s "freestream_mach").bind fun m => some (s.assign "freestream_speed" (m * c))

/-- Case.cpp:195. -/
def soundStep (s : Vars) : Option (Vars × ℝ) :=
  (s "freestream_temperature").bind fun t => (root (7 / 5 * Atmos.gasAir * t)).bind fun c => some (s.assign "freestream_sound_speed" c, c)

/-- Case.cpp:209-210. -/
def velocStep (nd : Nat) (s : Vars) (d : Nat → ℝ) : Option (Vars × (Nat → ℝ) × (Nat → ℝ)) :=
  (s "freestream_speed").bind fun v => some (setVector s "freestream_velocity" nd fun i => v * d i, (fun i => v * d i, d))

/-- Case.cpp:186-211: the velocity and its direction. -/
def velocity (nd : Nat) (s : Vars) : Option (Vars × (Nat → ℝ) × (Nat → ℝ)) :=
  if count s ["freestream_velocity0", "freestream_speed", "freestream_mach"] = 1 then
    if (s "freestream_velocity0").isSome then (getVector s "freestream_velocity" nd).bind fun v => some (s, (v, normalized nd v))
    else (soundStep s).bind fun x => (speedStep x.1 x.2).bind fun s => (direction nd s).bind fun d => velocStep nd s d
  else none

/-- `full_direction`, Case.cpp:189-190. -/
def padded (nd : Nat) (d : Nat → ℝ) (i : Nat) : ℝ := if i < nd then d i else 0

/-- Case.cpp:213-217: the vector `freestream` of five entries. -/
def stateOf (nd : Nat) (rho p : ℝ) (v : Nat → ℝ) (i : Nat) : ℝ :=
  if i < nd then rho * v i else if i = nd then rho else if i = nd + 1 then p / (7 / 5 - 1) + 1 / 2 * rho * sumN nd (fun j => v j * v j) else 0

/-- Case.cpp:212-218. -/
def stateStep (nd : Nat) (s : Vars) (v d : Nat → ℝ) : Option Vars :=
  let s := setVector s "freestream_direction" 3 (padded nd d)
  (s "freestream_density").bind fun rho => (s "freestream_pressure").bind fun p => some (setVector s "freestream" 5 (stateOf nd rho p v))

/-- Case.cpp:172-219. -/
def compute (nd : Nat) (s : Vars) : Option Vars :=
  (altitudeStep s).bind fun s => (thermoStep s).bind fun s => (velocity nd s).bind fun x => stateStep nd x.1 x.2.1 x.2.2

/-- The freestream part of `create_solver`, Case.cpp:162-219: the variables afterwards. -/
def create (nd : Nat) (s : Vars) : Option Vars :=
  if nd = 1 ∨ nd = 2 ∨ nd = 3 then
    if (s "freestream0").isSome then (getVector s "freestream" (nd + 2)).bind fun _ => some s else compute nd s
  else none

end
end Hexed.Free

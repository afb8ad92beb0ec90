import Mathlib.Analysis.SpecialFunctions.Pow.Real

set_option autoImplicit false
set_option linter.unusedVariables false

/-!
# Model of the standard atmosphere (src/standard_atmosphere.cpp)

Numbers are real, arithmetic is exact.
-/

noncomputable section

namespace Hexed.Atmos

/-- `constants::specific_gas_air`, include/constants.hpp 44. -/
def gasAir : ℝ := 287.05287

/-- `constants::earth_radius`, include/constants.hpp 45. -/
def earthRadius : ℝ := 6356766

/-- `constants::std_grav`, include/constants.hpp 70. -/
def stdGrav : ℝ := 9.80665

/-- `constants::atmosphere`, include/constants.hpp 92. -/
def atmosphere : ℝ := 101325

/-- `epsilon`, src/standard_atmosphere.cpp 28. -/
def epsilon : ℝ := 1e-10

/-- `alt_temp`: altitude and temperature, src/standard_atmosphere.cpp 8-17. -/
def altTemp : List (ℝ × ℝ) :=
  [(0, 288.15), (11000, 216.65), (20000, 216.65), (32000, 228.65), (47000, 270.65), (51000, 270.65),
    (71000, 214.65), (80000, 196.65)]

/-- Body of the loop for the layer from `(h0, t0)` to `(h1, t1)`, acting on `(pres, temp)`.
src/standard_atmosphere.cpp 32-40. -/
def layer (alt h0 t0 h1 t1 : ℝ) (s : ℝ × ℝ) : ℝ × ℝ :=
  let lapse := (t1 - t0) / (h1 - h0)
  let hDiff := min h1 alt - h0
  let temp := t0 + lapse * hDiff
  if |lapse| < epsilon then (s.1 * Real.exp (-stdGrav * hDiff / gasAir / t0), temp)
  else (s.1 * Real.rpow (temp / t0) (-stdGrav / lapse / gasAir), temp)

/-- The loop, which ends at the first layer that begins above the altitude or after the last layer.
src/standard_atmosphere.cpp 31. -/
def layers (alt : ℝ) : List (ℝ × ℝ) → ℝ × ℝ → ℝ × ℝ
  | (h0, t0) :: (h1, t1) :: rest, s =>
    if h0 - epsilon < alt then layers alt ((h1, t1) :: rest) (layer alt h0 t0 h1 t1 s) else s
  | _, s => s

/-- `standard_atmosphere_geopot`, src/standard_atmosphere.cpp 24-45: density and pressure; `none` is a
failed assertion. -/
def geopot (alt tempOffset : ℝ) : Option (ℝ × ℝ) :=
  if alt > 0 - epsilon ∧ alt < 80000 + epsilon then
    let s := layers alt altTemp (atmosphere, 0)
    some (s.1 / gasAir / (s.2 + tempOffset), s.1)
  else none

/-- `standard_atmosphere`, src/standard_atmosphere.cpp 19-22. -/
def geom (alt tempOffset : ℝ) : Option (ℝ × ℝ) :=
  geopot (earthRadius * alt / (earthRadius + alt)) tempOffset

end Hexed.Atmos

end

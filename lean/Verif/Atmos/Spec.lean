import Mathlib.MeasureTheory.Integral.IntervalIntegral.Basic
import Mathlib.Analysis.SpecialFunctions.Exp

set_option autoImplicit false

/-!
# The ICAO standard atmosphere

ICAO Doc 7488: the temperature is piecewise linear in the geopotential altitude with the lapse rates
-6.5, 0, 1, 2.8, 0, -2.8, -2 K/km, and the pressure is in hydrostatic equilibrium with an ideal gas of that
temperature, `dp/dh = -g p / (R T)`.
-/

noncomputable section

namespace Hexed.Atmos

/-- Temperature at the geopotential altitude `h`. -/
def icaoTemp (h : ℝ) : ℝ :=
  if h ≤ 11000 then 288.15 - 0.0065 * h
  else if h ≤ 20000 then 216.65
  else if h ≤ 32000 then 216.65 + 0.001 * (h - 20000)
  else if h ≤ 47000 then 228.65 + 0.0028 * (h - 32000)
  else if h ≤ 51000 then 270.65
  else if h ≤ 71000 then 270.65 - 0.0028 * (h - 51000)
  else 214.65 - 0.002 * (h - 71000)

/-- The pressure that is in hydrostatic equilibrium and one standard atmosphere at altitude 0. -/
def icaoPres (h : ℝ) : ℝ :=
  101325 * Real.exp (-(9.80665 / 287.05287) * ∫ s in (0 : ℝ)..h, 1 / icaoTemp s)

end Hexed.Atmos

end

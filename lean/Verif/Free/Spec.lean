import Verif.Free.Model
import Verif.Pde.Spec
set_option autoImplicit false
set_option linter.unusedVariables false

/-!
# What the freestream of a case should be (C80)
-/

namespace Hexed.Free
open Hexed.Force Hexed.Pde
noncomputable section

/-- The variables that describe the freestream of gas with density `rho`, pressure `p` and temperature `T`, that moves with velocity `v` in
direction `d`; `fs` is the state vector (momentum, density, energy, padded with zeros). -/
structure Describes (nd : Nat) (t : Vars) (rho p T : ℝ) (v d fs : Nat → ℝ) : Prop where
  density : t "freestream_density" = some rho
  pressure : t "freestream_pressure" = some p
  temperature : t "freestream_temperature" = some T
  velocity : ∀ i < nd, t (suffixed "freestream_velocity" i) = some (v i)
  direction : ∀ i < 3, t (suffixed "freestream_direction" i) = some (if i < nd then d i else 0)
  state : ∀ i < 5, t (suffixed "freestream" i) = some (fs i)

/-- The state vector of a gas with the given density, pressure and velocity. -/
structure StateOf (nd : Nat) (fs : Nat → ℝ) (rho p : ℝ) (v : Nat → ℝ) : Prop where
  mass : fs nd = rho
  veloc : ∀ i < nd, Vel nd fs i = v i
  pres : Pres nd fs = p
  rest : ∀ i, nd + 2 ≤ i → fs i = 0

/-- `d` is the unit vector that points in direction `w`. -/
structure Points (nd : Nat) (d w : Nat → ℝ) : Prop where
  unit : dotN nd d d = 1
  along : ∃ k > 0, ∀ i < nd, w i = k * d i

/-- The direction with the angle of attack `a` above the horizontal plane and the sideslip angle `b` in it. -/
def angleDirection (nd : Nat) (a b : ℝ) (i : Nat) : ℝ :=
  if nd = 1 then if i = 0 then 1 else 0
  else if nd = 2 then if i = 0 then Real.cos a else Real.sin a
  else if i = 0 then Real.cos a * Real.cos b else if i = 1 then Real.cos a * Real.sin b else Real.sin a

/-- Density, pressure and temperature are given by altitude, or by exactly two of them. -/
def ThermoGiven (s : Vars) : Prop :=
  (∃ alt off, s "altitude" = some alt ∧ s "temperature_offset" = some off ∧ s "freestream_temperature" = none ∧ (Atmos.geom alt off).isSome) ∨
  (s "altitude" = none ∧
    (((s "freestream_density").isSome ∧ (s "freestream_pressure").isSome ∧ s "freestream_temperature" = none) ∨
     ((s "freestream_density").isSome ∧ s "freestream_pressure" = none ∧ (s "freestream_temperature").isSome) ∨
     (s "freestream_density" = none ∧ (s "freestream_pressure").isSome ∧ (s "freestream_temperature").isSome)))

/-- The direction is given by a vector or by angles. -/
def DirectionGiven (nd : Nat) (s : Vars) : Prop :=
  ((s "freestream_direction0").isSome ∧ ∀ i < nd, (s (suffixed "freestream_direction" i)).isSome) ∨
  (s "freestream_direction0" = none ∧ (2 ≤ nd → (s "attack").isSome) ∧ (nd = 3 → (s "sideslip").isSome))

/-- Exactly one of velocity, speed and Mach number is given, with a direction. -/
def VelocityGiven (nd : Nat) (s : Vars) : Prop :=
  ((s "freestream_velocity0").isSome ∧ s "freestream_speed" = none ∧ s "freestream_mach" = none ∧ ∀ i < nd, (s (suffixed "freestream_velocity" i)).isSome) ∨
  (s "freestream_velocity0" = none ∧ (((s "freestream_speed").isSome ∧ s "freestream_mach" = none) ∨ (s "freestream_speed" = none ∧ (s "freestream_mach").isSome)) ∧ DirectionGiven nd s)

/-- Density, pressure and temperature, as far as they are given, are positive. -/
structure Physical (s : Vars) : Prop where
  given : ∀ name ∈ ["freestream_density", "freestream_pressure", "freestream_temperature"], ∀ x, s name = some x → 0 < x
  atmosphere : ∀ alt off r, s "altitude" = some alt → s "temperature_offset" = some off → Atmos.geom alt off = some r → 0 < r.1 ∧ 0 < r.2

end
end Hexed.Free

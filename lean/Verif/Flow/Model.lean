import Verif.Force.Model
import Verif.Atmos.Model
import Verif.MathFn.Int
import Mathlib.Analysis.SpecialFunctions.Pow.Real
set_option autoImplicit false
set_option linter.unusedVariables false

/-!
# Functions of the flow that can be visualized and integrated (C81)

Simplifications: floating point numbers are real numbers. The outcome `none` is a value that is not a number or infinite, an access past
the end of a vector, or an exception.
-/

namespace Hexed.Flow
open Hexed.Force
noncomputable section

/-- `Domain_func::operator()(pos, time, state)`, Domain_func.hpp:24-25. -/
abbrev DomainFn := List ℝ → ℝ → List ℝ → Option (List ℝ)

/-- Element of a vector at an index (undefined past the end). -/
def at? (v : List ℝ) (i : Nat) : Option ℝ := v[i]?

/-- Sum of squares of the first `n` entries, Domain_func.cpp:76-79, 96-99 and 126. -/
def squares (v : List ℝ) (n : Nat) : ℝ := ((v.take n).map fun x => x * x).sum

/-- `std::pow(a, e)`. Simplification: a negative base is the outcome `none` even if `e` is an integer. -/
def power (a e : ℝ) : Option ℝ := if a < 0 then none else if a = 0 ∧ e < 0 then none else some (a ^ e)

/-- `state.size() - 2`: unsigned, so that a shorter vector is read far past its end. -/
def dims (state : List ℝ) : Option Nat := if state.length < 2 then none else some (state.length - 2)

/-- `State_variables`, Domain_func.cpp:27-31. -/
def stateVariables : DomainFn := fun _ _ state => some state

/-- Kinetic energy and pressure, Domain_func.cpp:75-81 and 95-101. -/
def kinPres (hr : ℝ) (state : List ℝ) : Option (ℝ × ℝ × ℝ) :=
  (dims state).bind fun n => (at? state n).bind fun mass => (at? state (n + 1)).bind fun ener =>
    (quot (1 / 2 * squares state n) mass).bind fun kin => some (kin, (hr - 1) * (ener - kin), ener)

/-- `Pressure`, Domain_func.cpp:92-103. -/
def pressure (hr : ℝ) : DomainFn := fun _ _ state => (kinPres hr state).bind fun x => some [x.2.1]

/-- `Stag_pres`, Domain_func.cpp:72-88. -/
def stagPres (hr : ℝ) : DomainFn := fun _ _ state => (kinPres hr state).bind fun x =>
  let stag_enth := x.2.2 + x.2.1
  let enth := stag_enth - x.1
  (quot stag_enth enth).bind fun r => (quot hr (hr - 1)).bind fun e => (power r e).bind fun y => some [x.2.1 * y]

/-- `Velocity`, Domain_func.cpp:111-118. -/
def velocity : DomainFn := fun _ _ state => (dims state).bind fun n => (at? state n).bind fun mass => (state.take n).mapM fun m => quot m mass

/-- `Mach`, Domain_func.cpp:120-128. -/
def mach (hr : ℝ) : DomainFn := fun pos time state =>
  let nd := pos.length
  (at? state nd).bind fun mass => (kinPres hr state).bind fun x => (quot (squares state nd) (hr * x.2.1 * mass)).bind fun y => (root y).bind fun m => some [m]

/-- `Mass`, Domain_func.hpp:106-116. -/
def mass : DomainFn := fun pos _ state => (at? state pos.length).bind fun m => some [m]

/-- `Stab_indicator`, Domain_func.hpp:118-128. -/
def stabIndicator : DomainFn := fun pos _ state => (at? state pos.length).bind fun m => (quot 1 m).bind fun x => some [x]

/-- `Diff_sq`, Domain_func.cpp:33-46: reads the second result at the indices of the first. -/
def diffSq (func0 func1 : DomainFn) : DomainFn := fun pos time state =>
  (func0 pos time state).bind fun r0 => (func1 pos time state).bind fun r1 =>
    if r1.length < r0.length then none else some (List.zipWith (fun a b => (a - b) * (a - b)) r0 r1)

/-- `Error_func`, Domain_func.cpp:63-69. -/
def errorFn (correct : List ℝ → ℝ → Option (List ℝ)) : DomainFn := diffSq (fun pos time _ => correct pos time) stateVariables

/-- `Domain_func` at a quadrature point, Domain_func.cpp:9-17; the state of `n_var` variables is stored variable by variable. -/
def atQpoint (f : DomainFn) (n_var nq : Nat) (state : Nat → ℝ) (pos : Nat → List ℝ) (time : ℝ) (q : Nat) : Option (List ℝ) :=
  f (pos q) time ((List.range n_var).map fun v => state (v * nq + q))

/-- `Output_data` with its call operator, Output_data.hpp:31-39, for arguments of type `α`. -/
structure Func (α : Type) where
  nVar : Nat → Nat
  name : Nat → Nat → Option String
  eval : α → Option (List ℝ)

/-- `Concat_func::n_var`, Output_data.hpp:56-61. -/
def concatNVar {α : Type} (fs : List (Func α)) (nd : Nat) : Nat := fs.foldl (fun nv f => nv + f.nVar nd) 0

/-- `Concat_func::variable_name`, Output_data.hpp:64-72; past the last function the loop reads outside of the vector. -/
def concatName {α : Type} : List (Func α) → Nat → Nat → Option String
  | [], _, _ => none
  | f :: fs, nd, i => if i ≥ f.nVar nd then concatName fs nd (i - f.nVar nd) else f.name nd i

/-- `Concat_func::operator()`, Output_data.hpp:75-83. -/
def concatEval {α : Type} (fs : List (Func α)) (args : α) : Option (List ℝ) := fs.foldlM (fun (r : List ℝ) f => (f.eval args).bind fun x => some (r ++ x)) []

/-- `Concat_func`, Output_data.hpp:46-84. -/
def concat {α : Type} (fs : List (Func α)) : Func α := ⟨concatNVar fs, concatName fs, concatEval fs⟩

/-- `Component`, Qpoint_func.hpp:98-117. -/
def component {α : Type} (qf : Func α) (iv : Nat) : Func α := ⟨fun _ => 1, fun nd _ => qf.name nd iv, fun a => (qf.eval a).bind fun r => (at? r iv).bind fun x => some [x]⟩

/-- `Scaled`, Qpoint_func.hpp:127-148. -/
def scaled {α : Type} (qf : Func α) (b0 b1 : ℝ) : Func α :=
  ⟨fun _ => 1, fun nd _ => (qf.name nd 0).bind fun n => some ("scaled_" ++ n), fun a => (qf.eval a).bind fun r => (at? r 0).bind fun x => (quot (x - b0) (b1 - b0)).bind fun y => some [y]⟩

/-- `math::pow(x, e)`, math.hpp:29-36: negative exponents divide. -/
def intPow (x : ℝ) (e : ℤ) : Option ℝ := if e < 0 ∧ x = 0 then none else some (MathFn.pow x e)

/-- `Pow`, Qpoint_func.cpp:60-71. Simplification: the name is not cut at 999 characters. -/
def pow {α : Type} (qf : Func α) (e : ℤ) : Func α :=
  ⟨qf.nVar, fun nd i => (qf.name nd i).bind fun n => some ("(" ++ n ++ ")^" ++ toString e), fun a => (qf.eval a).bind fun r => r.mapM fun x => intPow x e⟩

/-- `Physical_residual`, Qpoint_func.cpp:38-46. -/
def physicalResidual (n_var nq : Nat) (residual_cache tss : Nat → ℝ) (q : Nat) : Option (List ℝ) :=
  (List.range n_var).mapM fun v => quot (residual_cache (v * nq + q)) (tss q)

/-- `hil_properties::state`, hil_properties.cpp:36-52. -/
def hilState (nd nq : Nat) (state bulk_av laplacian_av tss : Nat → ℝ) (q : Nat) (space : Vars) : Vars :=
  let s := (List.range nd).foldl (fun (s : Vars) i => s.assign (suffixed "momentum" i) (state (i * nq + q))) space
  let s := ((List.range 3).drop nd).foldl (fun (s : Vars) i => s.assign (suffixed "momentum" i) 0) s
  ((((s.assign "density" (state (nd * nq + q))).assign "energy" (state ((nd + 1) * nq + q))).assign "bulk_art_visc" (bulk_av q)).assign
    "laplacian_art_visc" (laplacian_av q)).assign "tss" (tss q)

/-- `temperature_expr`, Case.hil:15. -/
def temperatureExpr (s : Vars) : Option Vars :=
  (s "pressure").bind fun p => (s "density").bind fun r => (s "specific_gas_air").bind fun g => (quot p (r * g)).bind fun t => some (s.assign "temperature" t)

/-- `mach_expr`, Case.hil:16. -/
def machExpr (s : Vars) : Option Vars :=
  (s "speed").bind fun v => (s "heat_rat").bind fun hr => (s "pressure").bind fun p => (s "density").bind fun r => (quot (hr * p) r).bind fun y => (root y).bind fun c =>
    (quot v c).bind fun m => some (s.assign "mach" m)

/-- `state_vars`, Case.hil:27 (`momentum_expr`, `density_expr` and `energy_expr` assign variables to themselves). -/
def stateVars (s : Vars) : Option Vars :=
  (s "momentum0").bind fun _ => (s "momentum1").bind fun _ => (s "momentum2").bind fun _ => (s "density").bind fun _ => (s "energy").bind fun _ =>
    (velocityExpr s).bind fun s => (speedExpr s).bind fun s => (pressureExpr s).bind fun s => (temperatureExpr s).bind fun s => machExpr s

/-- `residual_expr`, Case.hil:8-11. -/
def residualExpr (s : Vars) : Option Vars :=
  ["momentum0", "momentum1", "momentum2", "density", "energy"].foldlM (fun (s : Vars) x => (s x).bind fun a => (s ("prev_" ++ x)).bind fun b => (s "tss").bind fun t =>
    (quot (a - b) t).bind fun r => some (s.assign ("residual_" ++ x) r)) s

/-- `pressure_coef_expr`, Case.hil:26. -/
def pressureCoefExpr (s : Vars) : Option Vars :=
  (s "pressure").bind fun p => (s "freestream_pressure").bind fun p0 => (s "freestream_density").bind fun r => (s "freestream_speed").bind fun v =>
    (quot (p - p0) (1 / 2 * r * v ^ 2)).bind fun c => some (s.assign "pressure_coef" c)

/-- `skin_friction_coef_expr`, Case.hil:25. -/
def skinFrictionExpr (s : Vars) : Option Vars :=
  (s "visc_stress0").bind fun a => (s "visc_stress1").bind fun b => (s "visc_stress2").bind fun c => (root (a ^ 2 + b ^ 2 + c ^ 2)).bind fun t =>
    (s "freestream_density").bind fun r => (s "freestream_speed").bind fun v => (quot t (1 / 2 * r * v ^ 2)).bind fun c => some (s.assign "skin_friction_coef" c)

end
end Hexed.Flow

import Mathlib.Analysis.SpecialFunctions.Sqrt
import Mathlib.Algebra.Module.Basic
set_option autoImplicit false
set_option linter.unusedVariables false

/-!
# Model of the linearization used by the implicit update

`Solver::Linearized` (include/Solver.hpp, src/Linearized.cpp).

A vector is a function of the number of the degree of freedom.  Storage is a function from the number of the stage
(`Element::stage`, which is where vector `i` is stage `storage_start + i`) to vectors; the numbers the code passes are
integers and vector `-storage_start` is the working state.  Numbers are real and arithmetic is exact.
-/

namespace Hexed.Implicit
noncomputable section

/-- One vector: all degrees of freedom of all elements. -/
abbrev Vec := Nat → ℝ

/-- Contents of the stages. -/
abbrev Store := Int → Vec

/-- `storage_start`, include/Solver.hpp 71. -/
def storageStart : Int := 4

/-- `Linearized::scale`, src/Linearized.cpp 27-37. -/
def scale (output input : Int) (scalar : ℝ) (s : Store) : Store :=
  Function.update s (storageStart + output) fun i => scalar * s (storageStart + input) i

/-- `Linearized::add`, src/Linearized.cpp 39-52. -/
def add (output : Int) (coef0 : ℝ) (vec0 : Int) (coef1 : ℝ) (vec1 : Int) (s : Store) : Store :=
  Function.update s (storageStart + output) fun i => coef0 * s (storageStart + vec0) i + coef1 * s (storageStart + vec1) i

/-- What the explicit update does to the stages: `step` is the new state as a function of the old one, `rate` what the
spatial kernel leaves in stage 1 (`residual_cache`, include/Spatial.hpp 484-495, the convective time rate of the state
at the beginning of the last step).  Both are arbitrary functions. -/
structure Flow where
  step : Vec → Vec
  rate : Vec → Vec

/-- `Solver::update` as far as the stages are concerned.  `compute_write_face` and `compute_prolong` bring the faces in
line with the state and are part of it. -/
def Flow.update (f : Flow) (s : Store) : Store :=
  Function.update (Function.update s 0 (f.step (s 0))) 1 (f.rate (s 0))

/-- `Linearized::matvec`, src/Linearized.cpp 73-85; `finite_diff` is the member of that name. -/
def matvec (f : Flow) (finite_diff : ℝ) (output input : Int) (s : Store) : Store :=
  let s := add (-storageStart) 1 (-storageStart) finite_diff input s
  let s := f.update s
  let s := add output 1 (-storageStart) (-1) (-storageStart + 1) s
  let s := add output 1 output (-1) 1 s
  let s := scale output output (1 / finite_diff) s
  scale (-storageStart) (-storageStart + 3) 1 s

/-- The part of the constructor that sets up the storage, src/Linearized.cpp 20-23. -/
def construct (f : Flow) (finite_diff : ℝ) (s : Store) : Store :=
  let s := scale (-storageStart + 3) (-storageStart) 1 s
  let s := scale 0 (-storageStart) 0 s
  let s := scale 1 (-storageStart) 0 s
  matvec f finite_diff 1 0 s

/-- `_ref_state`, src/Linearized.cpp 10-19; `freestream i` is the variable of that name with the number appended. -/
def refState (n_dim : Nat) (freestream : Nat → ℝ) (i_var : Nat) : ℝ :=
  let mmtm := (List.range n_dim).foldl (fun m i_dim => m + freestream n_dim ^ 2) 0
  if i_var < n_dim then Real.sqrt mmtm else freestream i_var

/-- `Linearized::inner`, src/Linearized.cpp 54-71, for `n_elem` elements with `nq` quadrature points and `n_var` variables.
Degree of freedom `i_dof` of element `i_elem` is number `i_elem*n_var*nq + i_dof`. -/
def inner (n_elem n_var nq : Nat) (weights ref_state : Nat → ℝ) (x y : Vec) : ℝ :=
  ((List.range n_elem).map fun i_elem => ((List.range n_var).map fun i_var => ((List.range nq).map fun i_qpoint =>
    let i_dof := i_elem * n_var * nq + (i_var * nq + i_qpoint)
    x i_dof * weights i_qpoint / ref_state i_var * y i_dof).sum).sum).sum

/-- The statements of `Solver::update_implicit` around the solver, src/Solver.cpp 891-893: `solve` is what the iterative
solver leaves in the storage.  The last argument of `add` is `0.`, converted to 0. -/
def updateImplicit (f : Flow) (finite_diff : ℝ) (solve : Store → Store) (s : Store) : Store :=
  add (-storageStart) 1 (-storageStart + 3) 1 0 (solve (construct f finite_diff s))

end
end Hexed.Implicit

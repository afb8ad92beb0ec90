import Verif.Solver.Model
set_option autoImplicit false
set_option linter.unusedVariables false

/-!
# Model of state files: `write_state`, `read_state` and what `initialize` does besides (src/Solver.cpp)
-/

namespace Hexed.StateFile
open Hexed.Spatial Hexed.Pde Hexed.Solver

/-- The data set `state` of a state file: its extent and its content, indexed by element, variable and quadrature point. -/
structure DataSet (α : Type) where
  n_elem : Nat
  n_var : Nat
  n_qpoint : Nat
  cell : Nat → Nat → Nat → α

/-- The hyperslab with extent `elem_dims = {1, n_var, n_qpoint}` at `offset = {i_elem, 0, 0}` (stride and block 1) lies inside the data
set. Otherwise the HDF5 library throws. Solver.cpp:241-248, 262-269. -/
def DataSet.contains {α : Type} (f : DataSet α) (i_elem n_var n_qpoint : Nat) : Bool :=
  decide (i_elem + 1 ≤ f.n_elem) && decide (n_var ≤ f.n_var) && decide (n_qpoint ≤ f.n_qpoint)

/-- The numerical data of one element, `Element::data` (Element.cpp:16, 119-190, Storage_params.cpp:32-40): variable number and
quadrature point. The memory space `mspace` of the transfers gives the array `state()` the shape `[1][n_var][n_qpoint]` of `Element::data`. -/
abbrev Row (α : Type) := Nat → Nat → α

/-- `dset.write(elems[i_elem].state(), ..., mspace, dspace)`, Solver.cpp:269. -/
def DataSet.put {α : Type} (f : DataSet α) (i_elem n_var n_qpoint : Nat) (row : Row α) : DataSet α :=
  { f with cell := fun i v q => if i = i_elem ∧ v < n_var ∧ q < n_qpoint then row v q else f.cell i v q }

/-- `Solver::write_state`, Solver.cpp:252-271, for the elements `elems` in the order of `acc_mesh->elements()`, with
`n_var = params.n_var_numeric()`. The file is new, so `fill` is the fill value of HDF5. -/
def writeState {α : Type} (fill : α) (n_var n_qpoint : Nat) (elems : List (Row α)) : DataSet α :=
  (List.range elems.length).foldl (fun f i_elem => (elems[i_elem]?).elim f fun row => f.put i_elem n_var n_qpoint row)
    ⟨elems.length, n_var, n_qpoint, fun _ _ _ => fill⟩

/-- The loop of `Solver::read_state`, Solver.cpp:240-249, over elements `i_elem`, `i_elem + 1`, ...; the result is the elements after the
call and whether it returned normally (`false`: it threw, and the elements before the offending one have been overwritten). -/
def readLoop {α : Type} (f : DataSet α) (n_var n_qpoint : Nat) : Nat → List (Row α) → List (Row α) × Bool
  | _, [] => ([], true)
  | i_elem, row :: rest =>
    if f.contains i_elem n_var n_qpoint then
      let r := readLoop f n_var n_qpoint (i_elem + 1) rest
      ((fun v q => if v < n_var ∧ q < n_qpoint then f.cell i_elem v q else row v q) :: r.1, r.2)
    else (row :: rest, false)

/-- `Solver::read_state`, Solver.cpp:232-250. Neither faces nor boundary connections are touched. -/
def readState {α : Type} (f : DataSet α) (n_var n_qpoint : Nat) (elems : List (Row α)) : List (Row α) × Bool :=
  readLoop f n_var n_qpoint 0 elems

/-! ## The data of a solver -/

/-- The numerical data of element `e`: `state()` and what follows it, up to `residual_cache()`, which starts at variable
`off = n_var + 3 + n_forcing + row_size`, Element.cpp:187-188. -/
def rowOf (off : Nat) (w : World) (e : Nat) : Row ℝ := fun v q => if v < off then w.state e (v, q) else w.cache e (v - off, q)

/-- The numerical data of the elements replaced by `rows`; faces are as before. -/
noncomputable def setRows (off : Nat) (elems : List Nat) (rows : List (Row ℝ)) (w : World) : World where
  state e k := if e ∈ elems ∧ k.1 < off then ((rows[elems.idxOf e]?).getD (rowOf off w e)) k.1 k.2 else w.state e k
  cache e k := if e ∈ elems then ((rows[elems.idxOf e]?).getD (rowOf off w e)) (off + k.1) k.2 else w.cache e k
  buf := w.buf

/-- `write_state` of a solver on the mesh `m`. -/
noncomputable def saveWorld (fill : ℝ) (off n_var n_qpoint : Nat) (m : Mesh) (w : World) : DataSet ℝ :=
  writeState fill n_var n_qpoint (m.elems.map (rowOf off w))

/-- `read_state` of a solver on the mesh `m`; `none` = it throws. -/
noncomputable def loadWorld (f : DataSet ℝ) (off n_var n_qpoint : Nat) (m : Mesh) (w : World) : Option World :=
  let r := readState f n_var n_qpoint (m.elems.map (rowOf off w))
  if r.2 then some (setRows off m.elems r.1 w) else none

/-- `compute_write_face`, kernels_convective.cpp:43-46, Spatial.hpp:59-66 (the equations are the Navier–Stokes equations without
viscosity). -/
noncomputable def runWriteFace (mu kappa : Transport) (bs : BasisData) (m : Mesh) (w : World) : World :=
  m.elems.foldl (onElem m.nd fun e state cache faces visc => ⟨state, cache, writeFace (ns m.nd false mu kappa) bs m.nd state faces, visc⟩) w

/-- `compute_write_face` and `compute_prolong`, as run by `Solver::initialize` (Solver.cpp:400-401) after it has set the state. -/
noncomputable def refresh (mu kappa : Transport) (bs : BasisData) (m : Mesh) (w : World) : World :=
  runProlong (ns m.nd false mu kappa) bs m false false (runWriteFace mu kappa bs m w)

/-- `Solver::initialize`, Solver.cpp:383-408, without the caches of boundary conditions; `func e v q` is the value of variable `v` of the
initial condition at quadrature point `q` of element `e`. -/
noncomputable def initSolver (mu kappa : Transport) (bs : BasisData) (m : Mesh) (func : Nat → Nat → Nat → ℝ) (w : World) : World :=
  refresh mu kappa bs m { w with state := fun e k => if e ∈ m.elems ∧ k.1 < m.nd + 2 ∧ k.2 < bs.n ^ m.nd then func e k.1 k.2 else w.state e k }

end Hexed.StateFile

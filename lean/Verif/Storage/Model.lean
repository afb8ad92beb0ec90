set_option autoImplicit false
set_option linter.unusedVariables false

/-!
# Model of the storage layout (include/Storage_params.hpp, src/Storage_params.cpp, src/Element.cpp, include/connection.hpp)

Pointers into the allocation of an element or a connection are modelled as offsets from its start. The integers are unbounded
natural numbers: overflow of `int` is not modelled.
-/

namespace Hexed.Storage

/-- `Storage_params`, Storage_params.hpp:8-18 (`n_forcing` has the default value 4). -/
structure Params where
  n_stage : Nat
  n_var : Nat
  n_dim : Nat
  row_size : Nat
  n_forcing : Nat := 4

/-- `n_advection`, Storage_params.hpp:12. -/
def nAdvection (row_size : Nat) : Nat := row_size

namespace Params

/-- Storage_params.cpp:7-10 -/
def nQpoint (p : Params) : Nat := p.row_size ^ p.n_dim
/-- Storage_params.cpp:12-15 -/
def nFaceQpoint (p : Params) : Nat := p.row_size ^ (p.n_dim - 1)
/-- Storage_params.cpp:17-20 -/
def nDof (p : Params) : Nat := p.nQpoint * p.n_var
/-- Storage_params.cpp:27-30 -/
def nVertices (p : Params) : Nat := 2 ^ p.n_dim
/-- Storage_params.cpp:32-35 -/
def nVarNumeric (p : Params) : Nat := p.n_var + 3 + p.n_forcing + nAdvection p.row_size + max ((p.n_stage - 1) * p.n_var) (nAdvection p.row_size)
/-- Storage_params.cpp:37-40 -/
def nDofNumeric (p : Params) : Nat := p.nVarNumeric * p.nQpoint

/-! ## `Element` -/

/-- Element.cpp:14: the size of `data` -/
def dataSize (p : Params) : Nat := p.nDofNumeric
/-- Element.cpp:188 -/
def state (p : Params) : Nat := 0
/-- Element.cpp:189 -/
def residualCache (p : Params) : Nat := (p.n_var + 3 + p.n_forcing + p.row_size) * p.nQpoint
/-- Element.cpp:112-115 -/
def stage (p : Params) (i_stage : Nat) : Nat := if i_stage > 0 then p.residualCache + (i_stage - 1) * p.nDof else p.state
/-- Element.cpp:117-120 -/
def timeStepScale (p : Params) : Nat := p.nDof
/-- Element.cpp:122-125 -/
def bulkAvCoef (p : Params) : Nat := p.timeStepScale + p.nQpoint
/-- Element.cpp:127-130 -/
def laplacianAvCoef (p : Params) : Nat := p.bulkAvCoef + p.nQpoint
/-- Element.cpp:132-135 -/
def artViscForcing (p : Params) : Nat := p.laplacianAvCoef + p.nQpoint
/-- Element.cpp:137-140 -/
def advectionState (p : Params) : Nat := p.artViscForcing + p.n_forcing * p.nQpoint
/-- Element.cpp:15: the size of `vertex_data` -/
def vertexDataSize (p : Params) : Nat := 2 * p.nVertices
/-- Element.cpp:163-166 -/
def vertexTimeStepScale (p : Params) (i_vertex : Nat) : Nat := i_vertex
/-- Element.cpp:168-171 -/
def vertexElwiseAv (p : Params) (i_vertex : Nat) : Nat := p.nVertices + i_vertex
/-- Element.cpp:190: the offset of `face(i_face, is_ldg)` from `faces[i_face]` -/
def elementFace (p : Params) (is_ldg : Bool) : Nat := is_ldg.toNat * p.nDof / p.row_size

/-! ## `Face_connection` -/

/-- connection.hpp:62, 82 -/
def stateSz (p : Params) : Nat := p.nDof / p.row_size
/-- connection.hpp:63, 83 -/
def faceSz (p : Params) : Nat := max (2 * p.stateSz) ((p.n_dim + nAdvection p.row_size) * p.nFaceQpoint)
/-- connection.hpp:81 -/
def nrmlSz (p : Params) : Nat := p.n_dim * p.nFaceQpoint
/-- connection.hpp:64, 84: the size of `_data` -/
def conSize (p : Params) (deformed : Bool) : Nat := if deformed then 2 * (p.nrmlSz + p.faceSz) else 2 * p.faceSz
/-- connection.hpp:67, 87 -/
def conState (p : Params) (i_side is_ldg : Bool) : Nat := i_side.toNat * p.faceSz + is_ldg.toNat * p.stateSz
/-- connection.hpp:88 -/
def conNormal (p : Params) (i_side : Bool) : Nat := 2 * p.faceSz + i_side.toNat * p.nrmlSz
/-- connection.hpp:234: the size of `coarse_state_data` of a `Refined_connection` -/
def coarseSize (p : Params) : Nat := 3 * p.nDof / p.row_size
/-- connection.hpp:355-357: the size of the `cache` of a boundary connection -/
def boundCacheSize (p : Params) : Nat := 2 * (p.n_var * p.nQpoint / p.row_size)
/-- connection.hpp:376-377 -/
def stateCache (p : Params) : Nat := 0
/-- connection.hpp:378 -/
def fluxCache (p : Params) : Nat := p.n_var * p.nQpoint / p.row_size

end Params

/-! ## Positions of the variables in the PDE classes, pde.hpp:17-21 -/

def tssOffset (n_dim : Nat) : Nat := n_dim + 2
def bulkAvOffset (n_dim : Nat) : Nat := n_dim + 3
def laplacianAvOffset (n_dim : Nat) : Nat := n_dim + 4
def forcingOffset (n_dim : Nat) : Nat := n_dim + 5
def advectionOffset (n_dim : Nat) : Nat := n_dim + 9

end Hexed.Storage

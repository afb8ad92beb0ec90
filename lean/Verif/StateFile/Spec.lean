import Verif.StateFile.Model
import Verif.Spatial.Spec
set_option autoImplicit false
set_option linter.unusedVariables false

/-!
# Specification of restarting from a state file
-/

namespace Hexed.StateFile
open Hexed.Spatial

/-- The face storage a solver has: faces of elements, mortar faces and ghost faces. -/
def faceStorage (m : Mesh) : List Buf := m.elemFaces ++ m.fineBufs ++ m.sides.filter Buf.isGhost

/-- The data of two solvers on the mesh `m` (with `off` variables before the residual cache and `n_var` numerical variables in all) may differ in
any way; only at addresses that do not exist, which the functions of the model assign values too, they do not. -/
structure SameElsewhere (bs : BasisData) (m : Mesh) (off n_var : Nat) (w0 w : World) : Prop where
  state : ∀ e v q, ¬(e ∈ m.elems ∧ v < off ∧ q < bs.n ^ m.nd) → w0.state e (v, q) = w.state e (v, q)
  cache : ∀ e v q, ¬(e ∈ m.elems ∧ v < n_var - off ∧ q < bs.n ^ m.nd) → w0.cache e (v, q) = w.cache e (v, q)
  face : ∀ b ldg a, ¬(b ∈ faceStorage m ∧ a < (m.nd + 2) * bs.n ^ (m.nd - 1)) → w0.buf b ldg a = w.buf b ldg a

/-- The data of the elements (state, time step scale, artificial viscosity, residuals and so on) is the same. -/
def SameData (m : Mesh) (w w' : World) : Prop := ∀ e ∈ m.elems, w.state e = w'.state e ∧ w.cache e = w'.cache e

end Hexed.StateFile

import Verif.SnapMesh.Model
import Verif.FaceSnap.Spec
set_option autoImplicit false
set_option linter.unusedVariables false

/-!
# Specification of snapping all faces (C87)
-/

namespace Hexed.SnapMesh
open Hexed.Spatial
open Hexed.FaceSnap (Elem)
open Hexed.Tensor (idx)
open Hexed.Basis (ell)
noncomputable section

/-- The boundary connections of element `e` to the surface. -/
def surfaceOf (l : List Bound) (e : Nat) : List Bound := l.filter fun c => c.surface && decide (c.elem = e)

/-- How far the point with coordinates `x` of the face of `e` in dimension `d` on side `σ` is moved outwards, as a multiple of the distance from the opposite face: the polynomial through the adjustments
of the face, which are counted towards side 1. -/
def outward (b : Basis.Nodes ℝ) (nd : Nat) (e : Elem) (d σ : Nat) (x : Fin (nd - 1) → ℝ) : ℝ :=
  (if σ = 0 then -1 else 1) * ∑ c : Fin (nd - 1) → Fin b.n, (∏ k, (ell b (c k)).eval (x k)) * e.adj ((2 * d + σ) * b.n ^ (nd - 1) + idx c)

/-- The Gauss-Lobatto rules: as many nodes as asked for, all different, the first and the last at the ends. -/
def IsLobatto (lob : Nat → Basis.Nodes ℝ) : Prop := ∀ k ≥ 2, (lob k).n = k ∧ (lob k).Distinct ∧ (lob k).node 0 = 0 ∧ (lob k).node (k - 1) = 1

/-- Boundary connections belong to elements of the mesh and to faces that exist. -/
def Setup.Ok (s : Setup) : Prop := ∀ c ∈ s.bounds, c.elem ∈ s.mesh.elems ∧ c.dim < s.mesh.nd ∧ c.sign < 2

end
end Hexed.SnapMesh

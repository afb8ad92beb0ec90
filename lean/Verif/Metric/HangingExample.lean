import Verif.Metric.Hanging
import Verif.Metric.Example
set_option autoImplicit false
set_option linter.unusedVariables false

/-!
# An example of normals of hanging faces: the mesh of trapezoids with arbitrary vertices
-/

namespace Hexed.Metric
open Hexed.Spatial Hexed.Pde Hexed.Solver
open Hexed.Connection (matchFaces)
noncomputable section

/-- The mesh of the example with other vertices, so that the faces in general do not meet. -/
def exMoved (vert : Nat → Nat → Nat → ℝ) : Shape := { exShape with elem := fun e => { exShape.elem e with vert := vert e } }

/-- The connection of the rotated element uses the normal of the coarse face wherever the vertices are. -/
example (vert : Nat → Nat → Nat → ℝ) (b : Basis.Nodes ℝ) (bs : BasisData) (w : World) {a : Nat} (ha : a < 2 * bs.n ^ 1) :
    ∃ c' ∈ ((exMoved vert).calcJacobian b bs w).cons, c'.side true = .elem 2 2 ∧
      c'.normal a = prolongFine bs 2 4 true (false, false) 1 (((exMoved vert).writeNormals b bs w).buf (.elem 0 1) false) (((exMoved vert).writeNormals b bs w).buf (.mortar 0 1) false) a := by
  have ok : (exMoved vert).kernel.Ok bs := exShape_ok bs
  have hk : Kinds (exMoved vert) := ⟨exShape_kinds.flat, exShape_kinds.fine, exShape_kinds.stretch, exShape_kinds.bound⟩
  obtain ⟨c', h1, h2, _, h3, _⟩ := hanging_normal (b := b) ok hk w (List.mem_of_getElem? (i := 1) rfl) rfl (r := 0) (i := 1) rfl (show 1 < nFace 2 (false, false) by decide) rfl ha
  exact ⟨c', h1, by rw [h2]; rfl, h3⟩

end
end Hexed.Metric

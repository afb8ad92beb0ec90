import Verif.Relax.Model
import Mathlib.Algebra.Module.LinearMap.Defs
set_option autoImplicit false
set_option linter.unusedVariables false

/-! # Specification for C85 -/

namespace Hexed.Relax
variable {V K : Type}

/-- No element forbids that the vertex moves. -/
def Mobile (m : Mesh V K) (v : V) : Prop := ∀ q ∈ m.ptrs v, q.mobile = true

/-- Some element asks that the vertex be smoothed. -/
def Needs (m : Mesh V K) (v : V) : Prop := ∃ q ∈ m.ptrs v, q.smooth = true

/-- Vertex number `i` of an element lies at the upper end of the element in dimension `d`: the first dimension is the most significant bit of the number. -/
def upper (nd i d : Nat) : Bool := i.testBit (nd - 1 - d)

/-- `v` is a vertex of a face of a deformed element to which boundary condition `bc` applies. -/
def OnFace (m : Mesh V K) (bc : Nat) (v : V) : Prop :=
  ∃ c ∈ m.cons, c.bc = bc ∧ ∃ i < 2 ^ m.nd, ((upper m.nd i c.dim = true ∧ c.sign = 1) ∨ (upper m.nd i c.dim = false ∧ c.sign = 0)) ∧ c.elem.vert i = v

/-- `v` is a vertex of the face of boundary connection `c`. -/
def FaceVert (m : Mesh V K) (c : Con V K) (v : V) : Prop :=
  ∃ i < 2 ^ m.nd, ((upper m.nd i c.dim = true ∧ c.sign = 1) ∨ (upper m.nd i c.dim = false ∧ c.sign = 0)) ∧ c.elem.vert i = v

/-- The coordinate of the plane of the face of boundary connection `c` of an element of the Cartesian grid. -/
def facePlane {K : Type} [Field K] (c : Con V K) : K := ((c.elem.nomPos c.dim : K) + c.sign) * c.elem.size + c.elem.origin c.dim

/-- `v` is listed as a vertex of face `sign` in dimension `d` of the root of the tree. -/
def AtExtreme (m : Mesh V K) (d sign : Nat) (v : V) : Prop := v ∈ m.bverts (m.treeBcs (2 * d + sign))

/-- No vertex is on two opposite faces of the root. -/
def Proper (m : Mesh V K) : Prop := ∀ d < m.nd, ∀ v, ¬ (AtExtreme m d 0 v ∧ AtExtreme m d 1 v)

variable [Field K]

/-- The mean of the positions of the neighbours of `v`. -/
def mean (m : Mesh V K) (v : V) : Nat → K := fun d => ((m.neigh v).map fun n => m.pos n d).sum / ((m.neigh v).length : K)

/-- `y` is `x`, with the coordinates replaced that belong to extreme faces on which `v` is listed. -/
def Planes (m : Mesh V K) (origin : Nat → K) (size : K) (v : V) (x y : Nat → K) : Prop :=
  ∀ d, (d < m.nd → AtExtreme m d 0 v → y d = origin d) ∧ (d < m.nd → AtExtreme m d 1 v → y d = origin d + size) ∧
    ((m.nd ≤ d ∨ ¬ AtExtreme m d 0 v ∧ ¬ AtExtreme m d 1 v) → y d = x d)

end Hexed.Relax

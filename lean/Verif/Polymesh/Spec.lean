import Verif.Polymesh.Model
import Verif.Connection.Spec
import Verif.Mesh.Props
import Mathlib.Data.Real.Basic
import Mathlib.Algebra.BigOperators.Group.Finset.Basic
import Mathlib.Algebra.BigOperators.Fin
import Mathlib.Data.Fin.VecNotation
import Mathlib.Data.List.Forall2

set_option autoImplicit false
set_option linter.unusedVariables false

/-!
# Specification of polyhedral meshes: area vectors of polygons, faces of hexahedra and how hexahedra meet
-/

namespace Hexed.Polymesh
open Hexed.MeshConn
open Hexed.Connection (Dir vertexInds nFine strAt Legal)
noncomputable section

/-- Vectors in space. -/
abbrev Vec := Fin 3 → ℝ

/-- Vector product. Indices are modulo 3. -/
def cross (a b : Vec) : Vec := fun i => a (i + 1) * b (i + 2) - a (i + 2) * b (i + 1)

/-- Scalar product. -/
def dot (a b : Vec) : ℝ := ∑ i, a i * b i

/-- The area vector of a quadrangle: its direction is the normal given by the right-hand rule for the order of the vertices, which is how OpenFOAM defines the normal of a face. -/
def quadArea (p q r s : Vec) : Vec := fun i => 1 / 2 * (cross p q i + cross q r i + cross r s i + cross s p i)

/-- Number of the vertex of a hexahedron with coordinates `c` (0 or 1). -/
def vtx (c : Fin 3 → Nat) : Nat := 4 * c 0 + 2 * c 1 + c 2

/-- Edge along axis `a` at the vertex with coordinates `c`. -/
def edge (x : Nat → Vec) (a : Fin 3) (c : Fin 3 → Nat) : Vec := fun i => x (vtx (Function.update c a 1)) i - x (vtx (Function.update c a 0)) i

/-- Coordinates of the vertices of the face with coordinate `d` equal to `s`. -/
def faceCorner (d : Fin 3) (s : Bool) (t : Bool × Bool) : Fin 3 → Nat := fun a => if a = d then s.toNat else if a = d + 1 then t.1.toNat else t.2.toNat

/-- The outward area vector of the surface of a hexahedron at a vertex of the face with coordinate `d` equal to `s`: the vector product of the edges along the other axes, which
points in the direction of the edge along `d` (right-handed axes) or against it. -/
def cornerNormal (x : Nat → Vec) (d : Fin 3) (s : Bool) (t : Bool × Bool) : Vec :=
  fun i => (if s then 1 else -1) * cross (edge x (d + 1) (faceCorner d s t)) (edge x (d + 2) (faceCorner d s t)) i

/-- The outward area vector of a face of a hexahedron: the mean of those at the vertices (which is exact for bilinear surfaces). -/
def outward (x : Nat → Vec) (d : Fin 3) (s : Bool) : Vec := fun i =>
  (cornerNormal x d s (false, false) i + cornerNormal x d s (false, true) i + cornerNormal x d s (true, false) i + cornerNormal x d s (true, true) i) / 4

/-- The volume element of a hexahedron at a vertex. -/
def cornerVolume (x : Nat → Vec) (c : Fin 3 → Nat) : ℝ := dot (edge x 0 c) (cross (edge x 1 c) (edge x 2 c))

/-- Trilinear interpolation: the point of a hexahedron with coordinates `ξ`. -/
def interior (x : Nat → Vec) (ξ : Fin 3 → ℝ) : Vec := fun i =>
  ∑ v ∈ Finset.range 8, x v i * ∏ a : Fin 3, if v / 2 ^ (2 - a.val) % 2 = 1 then ξ a else 1 - ξ a

/-- A face is divided along the axes that are not stretched into parts numbered in row-major order. The vertex of part `p` which lies where vertex `u` of the element lies on the whole
face: coordinate along `a`. -/
def partCorner (d : Fin 3) (str : Bool × Bool) (p u : Nat) (a : Fin 3) : ℝ :=
  let bit : Nat := u / 2 ^ (2 - a.val) % 2
  let split := ((Connection.faceAxes 3 d).zipIdx.filter fun q => !strAt str q.2).map Prod.fst
  if a ∈ split then (((p / 2 ^ (split.length - 1 - split.idxOf a) % 2 : Nat) : ℝ) + bit) / 2 else bit

/-- The positions of the vertices of element `e`. -/
def Data.x (D : Data) (pos : Nat → Vec) (e : Elem) : Nat → Vec := fun i_vert => pos (D.vert e i_vert)

/-- The vertices of the face with coordinate `d` equal to `s` of element `e`. -/
def Data.faceVerts (D : Data) (e : Elem) (d : Fin 3) (s : Bool) : List Nat := [(false, false), (false, true), (true, false), (true, true)].map fun t => D.vert e (vtx (faceCorner d s t))

/-- Conditions on a mesh: vertices of connected faces coincide where they are matched (C23), those of fine elements lie on the parts of the coarse face (C42, C43); no connection
joins an element with itself; fine elements are finer; boundary connections are with faces and boundary conditions that exist. -/
structure Fits (D : Data) (pos : Nat → Vec) : Prop where
  conf : ∀ d, ∀ c ∈ (D.mesh.byType d).cons, Legal 3 c.dir.toDir ∧ c.el false ≠ c.el true ∧ ∀ l, vertexInds 3 c.dir.toDir = some l → List.Forall₂ (fun u v => D.x pos (c.el false) u = D.x pos (c.el true) v) l.1 l.2
  ref : ∀ d i, ∀ r ∈ (D.mesh.byType d).refs i, Legal 3 r.dir.toDir ∧ ∀ l, vertexInds 3 r.dir.toDir = some l → ∃ str parts, parts.Perm (List.range (Connection.nFine 3 str)) ∧
    List.Forall₂ (fun e p => e ≠ r.coarse ∧ D.level r.coarse < D.level e ∧
      List.Forall₂ (fun u v => D.x pos e v = interior (D.x pos r.coarse) (partCorner (r.dir.toDir.iDim r.rev) str p u)) (if r.rev then l.2 else l.1) (if r.rev then l.1 else l.2)) r.fine parts
  bound : ∀ d, ∀ c ∈ (D.mesh.byType d).bounds, c.i_dim < 3 ∧ c.bc < D.mesh.n_bc
  verts : D.verts.Nodup ∧ ∀ e ∈ D.mesh.elements, ∀ i < 8, D.vert e i ∈ D.verts

/-- All connections between elements: conformal ones and one for each fine element of a hanging-node connection. -/
def views (m : Mesh) : List View := m.car.conns ++ m.dfm.conns

/-- The boundary connections with boundary condition `i_bc`. -/
def patchCons (m : Mesh) (i_bc : Nat) : List BCon := (m.car.bounds ++ m.dfm.bounds).filter fun c => c.bc = i_bc

/-- Area vector of a face in the files. -/
def Files.area (p : Files) (pos : Nat → Vec) (f : List Nat) : Vec :=
  let at_ (k : Nat) : Vec := ((f[k]?).bind fun l => p.points[l]?).elim 0 pos
  quadArea (at_ 0) (at_ 1) (at_ 2) (at_ 3)

/-- The format: every face has an owner and every interior face a neighbour with a higher number; faces consist of four of the points; interior faces come first and then those of
the patches, one patch after the other. -/
structure Files.WellFormed (p : Files) : Prop where
  owners : p.owner.length = p.faces.length ∧ ∀ o ∈ p.owner, o < p.nCells
  order : p.neighbour.length ≤ p.faces.length ∧ ∀ k o n : Nat, p.owner[k]? = some o → p.neighbour[k]? = some n → o < n ∧ n < p.nCells
  labels : ∀ f ∈ p.faces, f.length = 4 ∧ ∀ k ∈ f, k < p.points.length
  starts : ∀ (i : Nat) (x : Nat × Nat), p.patches[i]? = some x → x.2 = p.neighbour.length + ((p.patches.take i).map Prod.fst).sum
  total : p.neighbour.length + (p.patches.map Prod.fst).sum = p.faces.length

/-- What face `k` contributes to the sum of the area vectors pointing out of cell `c`. -/
def Files.flux (p : Files) (pos : Nat → Vec) (c k : Nat) : Vec := fun i =>
  (p.faces[k]?).elim 0 fun f => (if p.owner[k]? = some c then p.area pos f i else 0) - if p.neighbour[k]? = some c then p.area pos f i else 0

end
end Hexed.Polymesh

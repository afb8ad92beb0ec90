import Verif.Metric.Model
import Verif.Basis.Model
set_option autoImplicit false
set_option linter.unusedVariables false

/-!
# Model of the splitting of wall layers: `Accessible_mesh::extrude` with `collapse` and `offset` (src/Accessible_mesh.cpp), `split_layers` (src/Case.cpp)

`double` is a real number. Elements and vertices are numbers; `vid e i` is the vertex that `element.vertex(i)` refers to. The geometry, the `node_adjustments` and the numerical
state of the elements are modelled, and all writes to them that `extrude` performs. Not modelled: which faces are exposed (a list of faces is given) and the connections among the new
elements, with one exception: the connection of a new element to the element it is extruded from, which merges vertices that have the same position. The vertices of new elements
at the surface are not merged with those of neighbouring new elements, which are at the same place and are moved in the same way.
-/

namespace Hexed.Split
open Hexed.Spatial Hexed.Metric
open Hexed.RowIndex (RowIndex rows)
noncomputable section

/-- `Empty_face`, Accessible_mesh.cpp:287-292. -/
structure Face where
  elem : Nat
  i_dim : Nat
  sign : Bool

/-- What `extrude` reads and writes. `moved v` says that the record of vertex `v` has an additional entry. -/
structure Mesh where
  nd : Nat
  ne : Nat
  nv : Nat
  vid : Nat → Nat → Nat
  pos : Nat → Nat → ℝ
  adj : Nat → Mem
  state : Nat → Arr
  size : Nat → ℝ
  moved : Nat → Bool

/-- `i_collapse`, Accessible_mesh.cpp:419-422. -/
def iCollapse (nd : Nat) (f : Face) (i_vert : Nat) : Nat :=
  let stride := 2 ^ (nd - 1 - f.i_dim)
  ((i_vert : Int) + ((f.sign.toNat : Int) - ((i_vert / stride % 2 : Nat) : Int)) * (stride : Int)).toNat

/-- `node_adj[i] + (2*face.i_dim + (face_sign == face.face_sign))*nfq + i_qpoint`, Accessible_mesh.cpp:447. -/
def naIndex (nfq : Nat) (f : Face) (face_sign : Bool) (i_qpoint : Nat) : Nat := (2 * f.i_dim + (face_sign == f.sign).toNat) * nfq + i_qpoint

/-- The body of the loop over the points of the face, Accessible_mesh.cpp:444-455: the `node_adjustments` of `face.elem` and of the new element. -/
def adjStep (nfq : Nat) (f : Face) (offset : ℝ) (a : Mem × Mem) (i_qpoint : Nat) : Mem × Mem :=
  let na := fun s => naIndex nfq f s i_qpoint
  let a1 := Function.update a.2 (na true) (a.1 (na true))
  let mid := offset * a.1 (na false) + (1 - offset) * a.1 (na true)
  let a1 := Function.update a1 (na false) mid
  let a0 := Function.update a.1 (na true) mid
  let a0 := Function.update a0 (na false) (a0 (na false) / (1 - offset))
  let a1 := Function.update a1 (na false) (a1 (na false) / offset)
  let a0 := Function.update a0 (na true) (a0 (na true) / (1 - offset))
  let a1 := Function.update a1 (na true) (a1 (na true) / offset)
  (a0, a1)

/-- The loop, Accessible_mesh.cpp:441-456. -/
def splitAdj (nfq : Nat) (f : Face) (offset : ℝ) (a : Mem × Mem) : Mem × Mem := (List.range nfq).foldl (adjStep nfq f offset) a

/-- `width`, Accessible_mesh.cpp:461. -/
def width (offset : ℝ) (i_elem : Bool) : ℝ := 1 - (i_elem.toNat : ℝ) + (2 * (i_elem.toNat : ℝ) - 1) * offset

/-- `interp`, Accessible_mesh.cpp:462: `basis.interpolate(basis.nodes()*width + (i_elem == face.face_sign)*(1 - width))`. -/
def interpMat (b : Basis.Nodes ℝ) (f : Face) (offset : ℝ) (i_elem : Bool) (i j : Nat) : ℝ :=
  Basis.interpolateCpp b (b.node i * width offset i_elem + ((i_elem == f.sign).toNat : ℝ) * (1 - width offset i_elem)) j

/-- The interpolation of the state, Accessible_mesh.cpp:457-468: first the new element (1), then the old one (0). -/
def splitState (b : Basis.Nodes ℝ) (nd nvar : Nat) (f : Face) (offset : ℝ) (s : Arr × Arr) : Arr × Arr :=
  let s1 := (rows (RowIndex.new nd b.n f.i_dim)).foldl (fun d r => writeRow nvar (matRow b.n (interpMat b f offset true) (readRow s.1 0 r)) d 0 r 0) s.2
  let s0 := (rows (RowIndex.new nd b.n f.i_dim)).foldl (fun d r => writeRow nvar (matRow b.n (interpMat b f offset false) (readRow d 0 r)) d 0 r 0) s.1
  (s0, s1)

/-- The body of the loop that creates the extruded elements, Accessible_mesh.cpp:408-470, with `collapse`. The vertices of the new element on the side of `face.elem` become
the vertices of `face.elem` when the connection is made; they have the same position. -/
def create (b : Basis.Nodes ℝ) (nvar : Nat) (offset : ℝ) (m : Mesh) (f : Face) : Mesh :=
  let adj := if 0 < offset then splitAdj (b.n ^ m.nd / b.n) f offset (m.adj f.elem, m.adj m.ne) else (m.adj f.elem, m.adj m.ne)
  let state := if 0 < offset then splitState b m.nd nvar f offset (m.state f.elem, m.state m.ne) else (m.state f.elem, m.state m.ne)
  { m with
    ne := m.ne + 1
    nv := m.nv + 2 ^ m.nd
    vid := Function.update m.vid m.ne fun i_vert =>
      if (i_vert / 2 ^ (m.nd - 1 - f.i_dim) % 2 = 1) = (f.sign = true) then m.nv + i_vert else m.vid f.elem (iCollapse m.nd f i_vert)
    pos := fun v => if m.nv ≤ v ∧ v < m.nv + 2 ^ m.nd then m.pos (m.vid f.elem (iCollapse m.nd f (v - m.nv))) else m.pos v
    adj := Function.update (Function.update m.adj f.elem adj.1) m.ne adj.2
    state := Function.update (Function.update m.state f.elem state.1) m.ne state.2
    size := Function.update m.size m.ne (m.size f.elem) }

/-- Moving the vertices of one face that was exposed, Accessible_mesh.cpp:482-494. -/
def offsetFace (offset : ℝ) (m : Mesh) (f : Face) : Mesh :=
  (rows (RowIndex.new m.nd 2 f.i_dim)).foldl (fun (m : Mesh) ind =>
    let vert := m.vid f.elem (ind.i_qpoint f.sign.toNat)
    let off_vert := m.vid f.elem (ind.i_qpoint (!f.sign).toNat)
    if m.moved vert then m
    else { m with
      moved := Function.update m.moved vert true
      pos := Function.update m.pos vert fun i_dim =>
        if i_dim < m.nd then (1 - offset) * m.pos vert i_dim + offset * m.pos off_vert i_dim else m.pos vert i_dim }) m

/-- `extrude(true, offset, force)`, Accessible_mesh.cpp:334-503, up to the connections among new elements, where `faces` are the exposed faces. At the end no vertex is marked. -/
def extrude (b : Basis.Nodes ℝ) (nvar : Nat) (m : Mesh) (faces : List Face) (offset : ℝ) : Mesh :=
  let m := faces.foldl (create b nvar offset) m
  if 0 < offset then { faces.foldl (offsetFace offset) m with moved := fun _ => false } else m

/-- The faces that are exposed after `extrude`: those of the new elements at the surface (Mesh.hpp:85-87). -/
def newFaces (m : Mesh) (faces : List Face) : List Face := faces.mapIdx fun i f => ⟨m.ne + i, f.i_dim, f.sign⟩

/-- The loop of `split_layers`, Case.cpp:296-300: the mesh and the faces that are exposed in it, and `prev_split`. -/
def splitLayers (b : Basis.Nodes ℝ) (nvar : Nat) : List ℝ → ℝ → Mesh × List Face → Mesh × List Face
  | [], _, s => s
  | split :: points, prev_split, s => splitLayers b nvar points split (extrude b nvar s.1 s.2 (split / prev_split), newFaces s.1 s.2)

/-- Successive calls of `extrude(true, offset, true)`, as in `extrude(Layer_sequence)`, Mesh.hpp:104-112. -/
def extrudeAll (b : Basis.Nodes ℝ) (nvar : Nat) : List ℝ → Mesh × List Face → Mesh × List Face
  | [], s => s
  | offset :: offsets, s => extrudeAll b nvar offsets (extrude b nvar s.1 s.2 offset, newFaces s.1 s.2)

/-- An element as `Deformed_element::position` and `set_jacobian` see it. -/
def Mesh.shape (m : Mesh) (e : Nat) : ElemShape := ⟨m.size e, fun _ => 1, fun _ => 0, true, fun i_vert i_dim => m.pos (m.vid e i_vert) i_dim, m.adj e⟩

end
end Hexed.Split

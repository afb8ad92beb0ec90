import Verif.Solver.Model
import Verif.Spatial.ExactPoint
import Verif.Basis.Spec
import Mathlib.LinearAlgebra.Matrix.Determinant.Basic
set_option autoImplicit false
set_option linter.unusedVariables false

/-!
# Model of `Solver::calc_jacobian` and of what it calls

`Deformed_element::position`, `Deformed_element::set_jacobian` (src/Deformed_element.cpp), `Element::position`, `Element::set_jacobian` (src/Element.cpp) and
`Solver::calc_jacobian` (src/Solver.cpp:273-378). `double` is `ℝ`. `math::dimension_matvec` is replaced by what C20 proves it computes. Not modelled: `snap_faces()` (the
vertices and adjustments are those after it), the time step scale at vertices and the positions stored for boundary faces.
-/

namespace Hexed.Metric
open Hexed.Spatial Hexed.Pde Hexed.Solver
open Hexed.Connection (Dir matchFaces restore)
noncomputable section

/-- An element: `nominal_size()`, `time_step_scale()`, `nom_pos*nom_sz + origin`; whether it is a `Deformed_element`, the coordinates `vertex(i_vert).pos[i_dim]`
of its vertices and its `node_adjustments()`. -/
structure ElemShape where
  size : ℝ
  tss : Nat → ℝ
  corner : Nat → ℝ
  deformed : Bool
  vert : Nat → Nat → ℝ
  adj : Mem

/-- A mesh before the metric is computed: like `Spatial.Mesh`, where `ConRec.deformed` says that a connection is in `deformed().face_connections()` and `ConRec.normal`
is not used yet; `refDef` says which refined faces belong to `deformed().refined_connections()`. -/
structure Shape where
  nd : Nat
  elems : List Nat
  elem : Nat → ElemShape
  cons : List ConRec
  refs : List RefRec
  refDef : Nat → Bool

/-- `dimension_matvec` of a row of two entries along the last dimension of an array with two entries in each dimension. -/
def contractLast (c v : Nat → ℝ) : Nat → ℝ := fun a => c 0 * v (2 * a) + c 1 * v (2 * a + 1)

/-- `i_face_qpoint`, Deformed_element.cpp:38-43: pairs (`i_face_qpoint`, `face_stride`). -/
def faceQpoint (nd n j_dim q : Nat) : Nat :=
  ((List.range nd).foldl (fun (s : Nat × Nat) k_dim =>
    if k_dim ≠ j_dim then (s.1 + q / n ^ (nd - k_dim - 1) % n * s.2, s.2 / n) else s) (0, n ^ nd / n / n)).1

/-- The body of the loop over `j_dim`, Deformed_element.cpp:31-54: `vert_pos` and `adjustments`. -/
def positionStep (b : Basis.Nodes ℝ) (nd : Nat) (adj : Mem) (q : Nat) (s : (Nat → ℝ) × (Nat → Nat → ℝ)) (j_dim : Nat) : (Nat → ℝ) × (Nat → Nat → ℝ) :=
  let node := b.node (q / b.n ^ (nd - j_dim - 1) % b.n)
  let interp : Nat → ℝ := fun i => if i = 0 then 1 - node else node
  let adjust : Nat → ℝ := fun i => adj (2 * j_dim * b.n ^ nd / b.n + faceQpoint nd b.n j_dim q + i * (b.n ^ nd / b.n))
  (contractLast interp s.1,
   fun k_dim => contractLast (if j_dim = k_dim then fun c => ∑ i ∈ Finset.range 2, adjust i * interp i * (if c = 0 then -1 else 1) else interp) (s.2 k_dim))

/-- `Deformed_element::position`, Deformed_element.cpp:15-60, for one component whose values at the vertices are `vert`. -/
def warpedPosition (b : Basis.Nodes ℝ) (nd : Nat) (adj : Mem) (q : Nat) (vert : Nat → ℝ) : ℝ :=
  let s := (List.range nd).reverse.foldl (positionStep b nd adj q) (vert, fun _ => vert)
  s.1 0 + ∑ j_dim ∈ Finset.range nd, s.2 j_dim 0

/-- `position(basis, i_qpoint)[i_dim]` of elements, Element.cpp:63-71, Deformed_element.cpp:15-60. -/
def ElemShape.position (e : ElemShape) (b : Basis.Nodes ℝ) (nd q i_dim : Nat) : ℝ :=
  if e.deformed then warpedPosition b nd e.adj q fun i_vert => e.vert i_vert i_dim
  else e.size * b.node (q / b.n ^ (nd - i_dim - 1) % b.n) + e.corner i_dim

/-- `jac((i_dim*n_dim + j_dim)*n_qpoint + i_qpoint)`, Deformed_element.cpp:67-75. -/
def ElemShape.jac (e : ElemShape) (b : Basis.Nodes ℝ) (bs : BasisData) (nd q i_dim j_dim : Nat) : ℝ :=
  (∑ k ∈ Finset.range bs.n, bs.diff (nodeOf nd bs.n j_dim q) k * e.position b nd (pt nd bs.n j_dim (rowOf nd bs.n j_dim q) k) i_dim) / e.size

/-- `qpoint_jac.determinant()`. -/
def jacDet (nd : Nat) (J : Nat → Nat → ℝ) : ℝ := Matrix.det (Matrix.of fun r c : Fin nd => J r.val c.val)

/-- The determinant after column `i_dim` has been set to unit vector `j_dim`, Deformed_element.cpp:86-91, 111-114. -/
def jacMinor (nd : Nat) (J : Nat → Nat → ℝ) (i_dim j_dim : Nat) : ℝ := jacDet nd fun r c => if c = i_dim then (if r = j_dim then 1 else 0) else J r c

/-- `face_jac(i_qpoint, r*n_dim + c)`, Deformed_element.cpp:100-103. -/
def ElemShape.faceJac (e : ElemShape) (b : Basis.Nodes ℝ) (bs : BasisData) (nd f k r c : Nat) : ℝ :=
  ∑ i ∈ Finset.range bs.n, bs.bound (f % 2) i * e.jac b bs nd (pt nd bs.n (f / 2) k i) r c

/-- What `set_jacobian` writes at `j_dim*nfq + i_qpoint` of face `f`, Element.cpp:99-112, Deformed_element.cpp:95-118. -/
def ElemShape.faceNormal (e : ElemShape) (b : Basis.Nodes ℝ) (bs : BasisData) (nd f j_dim k : Nat) : ℝ :=
  if e.deformed then jacMinor nd (e.faceJac b bs nd f k) (f / 2) j_dim else if f / 2 = j_dim then 1 else 0

/-- The mesh as kernels see it before the metric is known: `_kernel_mesh()`. -/
def Shape.kernel (s : Shape) : Mesh where
  nd := s.nd
  elems := s.elems
  elem e := ⟨(s.elem e).size, (s.elem e).tss, none⟩
  cons := s.cons
  refs := s.refs

/-- The first loop, Solver.cpp:282-286. Elements write their own faces. -/
def Shape.writeNormals (s : Shape) (b : Basis.Nodes ℝ) (bs : BasisData) (w : World) : World :=
  { w with buf := fun B off => match B, off with
      | .elem e f, false => fun a => if e ∈ s.elems ∧ f < 2 * s.nd ∧ a < s.nd * bs.n ^ (s.nd - 1) then (s.elem e).faceNormal b bs s.nd f (a / bs.n ^ (s.nd - 1)) (a % bs.n ^ (s.nd - 1)) else w.buf B off a
      | _, _ => w.buf B off }

/-- The sign of side `i_side`, Solver.cpp:338. -/
def flipSign (d : Dir) (i_side : Bool) : ℝ := 1 - 2 * ((d.flipNormal i_side).toNat : ℝ)

/-- Is this storage a fine mortar face? -/
def isMortar : Buf → Bool
  | .mortar _ _ => true
  | _ => false

/-- The loop over fine connections of deformed refined connections, Solver.cpp:303-317, for one connection; `rev` is the side on which the mortar face is. Data of the
first `n_dim` variables is copied, then `restore` permutes all variables. -/
def copyNormal (nd n : Nat) (c : ConRec) (st : Sides) : Sides :=
  let rev := isMortar (c.side true)
  let sign : ℝ := 1 - 2 * ((c.dir.flipNormal false != c.dir.flipNormal true).toNat : ℝ)
  if c.deformed && (isMortar (c.side false) || rev) then
    let f1 := matchFaces nd n (nd + 2) c.dir (st (!rev) false)
    let f1 : Mem := fun a => if a < nd * n ^ (nd - 1) then sign * st rev false a else f1 a
    let f1 := restore nd n (nd + 2) c.dir f1
    fun s off => if s = !rev ∧ off = false then f1 else st s off
  else st

/-- Copying the normal to the ghost face, Solver.cpp:319-326, for one connection. -/
def ghostNormal (nd n : Nat) (c : ConRec) (st : Sides) : Sides :=
  if (c.side true).isGhost then fun s off => if s = true ∧ off = false then fun a => if a < nd * n ^ (nd - 1) then st false false a else st true false a else st s off
  else st

/-- Computing the shared normal, Solver.cpp:328-353, for one connection. What is copied to `con.normal(i_side)` is the data left in the face storage. -/
def shareNormal (nd n : Nat) (c : ConRec) (st : Sides) : Sides :=
  if c.deformed then
    let f1 := matchFaces nd n (nd + 2) c.dir (st true false)
    let avg : Mem := fun a => 1 / 2 * flipSign c.dir false * st false false a + 1 / 2 * flipSign c.dir true * f1 a
    let g0 : Mem := fun a => if a < nd * n ^ (nd - 1) then flipSign c.dir false * avg a else st false false a
    let g1 : Mem := fun a => if a < nd * n ^ (nd - 1) then flipSign c.dir true * avg a else f1 a
    fun s off => if off then st s off else if s then restore nd n (nd + 2) c.dir g1 else g0
  else st

/-- All loops of `calc_jacobian` that work on face storage, Solver.cpp:281-353. -/
def Shape.normals (s : Shape) (b : Basis.Nodes ℝ) (bs : BasisData) (w : World) : World :=
  let w := s.writeNormals b bs w
  let w := runProlong (ns s.nd false .inviscid .inviscid) bs s.kernel true false w
  let w := s.cons.foldl (onCon fun c st => copyNormal s.nd bs.n c st) w
  let w := s.cons.foldl (onCon fun c st => ghostNormal s.nd bs.n c st) w
  s.cons.foldl (onCon fun c st => shareNormal s.nd bs.n c st) w

/-- Whether `face_normal(i_face)` of the element with face storage `B` points to data: to `normal(i_side)` of a deformed connection (connection.hpp:143-148, 298-299, 389-392) or to
the `coarse_normal` of a deformed refined connection (295-296). -/
def Shape.hasNormal (s : Shape) (B : Buf) : Bool :=
  (s.cons.any fun c => c.deformed && (decide (c.side false = B) || decide (c.side true = B))) || ((s.refs.zipIdx).any fun r => s.refDef r.2 && decide (r.1.coarse = B))

/-- `calc_jacobian`, Solver.cpp:273-378: the mesh kernels work on afterwards. `normal()` of a connection is `normal(0)`; `coarse_normal` is what is in the storage of the coarse
face (354-368). -/
def Shape.calcJacobian (s : Shape) (b : Basis.Nodes ℝ) (bs : BasisData) (w : World) : Mesh where
  nd := s.nd
  elems := s.elems
  elem e := ⟨(s.elem e).size, (s.elem e).tss,
    if (s.elem e).deformed then some
      { nrml := fun a => jacMinor s.nd ((s.elem e).jac b bs s.nd a.2) (a.1 / s.nd) (a.1 % s.nd)
        det := fun q => jacDet s.nd ((s.elem e).jac b bs s.nd q)
        faceNrml := fun f => if s.hasNormal (.elem e f) then some ((s.normals b bs w).buf (.elem e f) false) else none }
    else none⟩
  cons := s.cons.map fun c => { c with normal := if c.deformed then (s.normals b bs w).buf (c.side false) false else c.normal }
  refs := s.refs

end
end Hexed.Metric

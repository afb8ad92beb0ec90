import Verif.SnapMesh.Model
set_option autoImplicit false
set_option linter.unusedVariables false

/-!
# Model of `Solver::set_uncert_surface_rep` (src/Solver.cpp:681-815) (C89)

The kernels are those of `Spatial`. A parallel loop that writes to each element, or to each connection, its own data is modelled as a function or as a loop over a list, in any order.
-/

namespace Hexed.SurfRep
open Hexed.Spatial Hexed.Pde
open Hexed.StateFile (runWriteFace)
open Hexed.SnapMesh (put sgn backup restoreState)
open Hexed.Connection (matchFaces restore)
noncomputable section

/-- A `Boundary_connection`: `element()`, `i_dim()`, `inside_face_sign()` and `bound_cond_serial_n()`. -/
structure Bound where
  elem : Nat
  dim : Nat
  sign : Nat
  sn : Nat

/-- The storage of `inside_face()`. -/
def Bound.face (c : Bound) : Buf := .elem c.elem (2 * c.dim + c.sign)

/-- The numerical data, `Element::uncertainty` and `Element::record`. -/
structure Data where
  world : World
  uncert : Nat → ℝ
  record : Nat → Nat

/-- Solver.cpp:704-712, for one connection. -/
def mark (nd sn : Nat) (record : Nat → Nat) (c : Bound) : Nat → Nat := if c.sn = sn then put record c.elem (2 * nd + 2 * c.dim + c.sign) else record

/-- `record/(2*nd) == 1`, Solver.cpp:719, 738, 792. -/
def isOn (nd r : Nat) : Bool := r / (2 * nd) == 1

/-- The reference level normals in place of the momentum, Solver.cpp:715-730. -/
def loadNormals (n : Nat) (m : Mesh) (record : Nat → Nat) (w : World) : World :=
  { w with state := fun e k =>
      match (m.elem e).geom with
      | none => w.state e k
      | some g => if e ∈ m.elems ∧ isOn m.nd (record e) ∧ k.1 < m.nd ∧ k.2 < n ^ m.nd then g.nrml ((record e - 2 * m.nd) / 2 * m.nd + k.1, k.2) * sgn (record e % 2) else w.state e k }

/-- `i_dim_extrap`, Solver.cpp:747. -/
def extrapDim (nd i_dim i_face : Nat) : Nat := if nd = 3 then (if (i_dim : Int) > 3 - i_dim - i_face / 2 then 1 else 0) else 0

/-- `math::dimension_matvec` with a matrix all of whose rows are `coef`, at entry `k` (math.cpp:58-81; the sum is that of `Tensor.dimension_sum`). `stride` is the distance of entries that are
neighbours along the dimension. -/
def alongDim (n stride : Nat) (coef : Nat → ℝ) (vec : Nat → ℝ) (k : Nat) : ℝ := ∑ t ∈ Finset.range n, coef t * vec (k / (stride * n) * (stride * n) + t * stride + k % stride)

/-- Extrapolation to the wall, Solver.cpp:746-752. -/
def toWall (bs : BasisData) (nd i_dim positive i_face : Nat) (face : Mem) : Mem := fun a =>
  let nfq := bs.n ^ (nd - 1)
  if a < nd * nfq then alongDim bs.n (bs.n ^ (nd - 1 - (extrapDim nd i_dim i_face + 1))) (bs.bound positive) (fun k => face (a / nfq * nfq + k)) (a % nfq) else face a

/-- `face(i_qpoint, all).normalize()`, Solver.cpp:754-756: Eigen divides only if the norm is positive. -/
def normalized (nd nfq : Nat) (face : Mem) : Mem := fun a =>
  let z := ∑ j ∈ Finset.range nd, face (j * nfq + a % nfq) * face (j * nfq + a % nfq)
  if a < nd * nfq ∧ 0 < z then face a / √z else face a

/-- Unit normals in the lateral faces of the deformed elements at the boundary, Solver.cpp:734-760. -/
def unitNormals (bs : BasisData) (m : Mesh) (record : Nat → Nat) (w : World) : World :=
  { w with buf := fun b l =>
      match b with
      | .elem e f =>
        if e ∈ m.elems ∧ (m.elem e).geom.isSome ∧ isOn m.nd (record e) ∧ f < 2 * m.nd ∧ f / 2 ≠ (record e - 2 * m.nd) / 2 ∧ l = false then
          normalized m.nd (bs.n ^ (m.nd - 1)) (toWall bs m.nd ((record e - 2 * m.nd) / 2) (record e % 2) f (w.buf b l))
        else w.buf b l
      | _ => w.buf b l }

/-- One connection, Solver.cpp:767-777. `face_permutation` is that of the Navier–Stokes equations (kernels_convective.cpp:38-41). -/
def diffCon (nd n : Nat) (c : ConRec) (st : Sides) : Sides :=
  let nfq := n ^ (nd - 1)
  let face1 := matchFaces nd n (nd + 2) c.dir (st true false)
  let diff : Mem → Mem := fun old a => if a < nd * nfq then st false false a - face1 a else old a
  fun side is_ldg => if is_ldg then st side is_ldg else if side then restore nd n (nd + 2) c.dir (diff face1) else diff (st false false)

/-- `deformed().face_connections()`: also those of all boundary connections (Accessible_mesh.cpp:136-146, Mesh_by_type.hpp:96-140), which are deformed. Solver.cpp:763-778. -/
def differences (n : Nat) (m : Mesh) (w : World) : World := (m.cons.filter ConRec.deformed).foldl (onCon (diffCon m.nd n)) w

/-- Solver.cpp:780-785, for one connection. -/
def zeroFace (n nd : Nat) (buf : Buf → Bool → Mem) (c : Bound) : Buf → Bool → Mem :=
  setBuf buf c.face false fun a => if a < (nd + 2) * n ^ (nd - 1) then 0 else buf c.face false a

/-- The terms and the total of one element, Solver.cpp:793-800. -/
def faceNorm (bs : BasisData) (nd : Nat) (face : Mem) : ℝ :=
  let nfq := bs.n ^ (nd - 1)
  let norm : Nat → ℝ := fun k => √(∑ j ∈ Finset.range nd, face (j * nfq + k) * face (j * nfq + k))
  √(∑ k ∈ Finset.range nfq, norm k * (qw bs.weight bs.n (nd - 1) k * norm k))
/-- Solver.cpp:791-801. -/
def totalUp (bs : BasisData) (nd record : Nat) (faces : Nat → Mem) (u : ℝ) : ℝ :=
  if isOn nd record then (List.range (2 * nd)).foldl (fun u f => if f / 2 ≠ (record - 2 * nd) / 2 then u + faceNorm bs nd (faces f) else u) u / (2 * (max (nd - 1) 1 : Nat)) else u

/-- The world in which the uncertainties are read, Solver.cpp:713-786. -/
def compareNormals (mu kappa : Transport) (bs : BasisData) (m : Mesh) (bounds : List Bound) (record : Nat → Nat) (w : World) : World :=
  let p := ns m.nd false mu kappa
  let w := runProlong p bs m false false (unitNormals bs m record (runWriteFace mu kappa bs m (loadNormals bs.n m record w)))
  let w := differences bs.n m w
  let w := { w with buf := bounds.foldl (zeroFace bs.n m.nd) w.buf }
  runRestrict p bs m false false w

/-- `Solver::set_uncert_surface_rep(bc_sn)`, Solver.cpp:681-815. -/
def setUncertSurfaceRep (mu kappa : Transport) (bs : BasisData) (m : Mesh) (bounds : List Bound) (sn : Nat) (d : Data) : Data :=
  let record := bounds.foldl (mark m.nd sn) fun e => if e ∈ m.elems then 0 else d.record e
  let w := compareNormals mu kappa bs m bounds record (backup bs.n m d.world)
  let uncert := fun e => if e ∈ m.elems then totalUp bs m.nd (record e) (fun f => w.buf (.elem e f) false) 0 else d.uncert e
  ⟨runWriteFace mu kappa bs m (restoreState bs.n m w), uncert, record⟩

end
end Hexed.SurfRep

import Mathlib.Data.List.Basic
set_option autoImplicit false
set_option linter.unusedVariables false

/-!
# Model of connection directions, vertex matching and face permutation

`Connection_direction` (include/Kernel_connection.hpp), `face_vertex_inds` and `vertex_inds` (src/connection.cpp),
`Face_permutation` (include/Spatial.hpp), the loops of the constructor of `Refined_connection` (include/connection.hpp) and
`math::stretched_ind` (src/math.cpp). Dimensions are numbers below 3.
-/

namespace Hexed.Connection

/-- `Connection_direction`, Kernel_connection.hpp:7-11. -/
structure Dir where
  i0 : Fin 3
  i1 : Fin 3
  s0 : Bool
  s1 : Bool
  deriving DecidableEq

/-- `i_dim[i_side]`; `true` = side 1. -/
def Dir.iDim (d : Dir) (side : Bool) : Fin 3 := if side then d.i1 else d.i0
/-- `face_sign[i_side]`. -/
def Dir.faceSign (d : Dir) (side : Bool) : Bool := if side then d.s1 else d.s0

/-- `flip_normal`, Kernel_connection.hpp:17. -/
def Dir.flipNormal (d : Dir) (side : Bool) : Bool := d.faceSign side == side

/-- `flip_tangential`, Kernel_connection.hpp:22-27. -/
def Dir.flipTangential (d : Dir) : Bool := d.i0 != d.i1 && d.flipNormal false == d.flipNormal true

/-- `transpose`, Kernel_connection.hpp:33-36. -/
def Dir.transpose (d : Dir) : Bool := (d.i0 == 0 && d.i1 == 2) || (d.i0 == 2 && d.i1 == 0)

/-- The stride of the flip, connection.cpp:15-19. -/
def flipStride (nd : Nat) (d : Dir) : Nat :=
  if nd = 3 then
    let unused : Int := 3 - d.i0.val - d.i1.val
    if unused > d.i0.val then 2 else 1
  else 1

/-- `std::swap(inds[1], inds[2])`. -/
def swap12 : List Nat → List Nat
  | a :: b :: c :: l => a :: c :: b :: l
  | l => l

/-- `face_vertex_inds`, connection.cpp:6-27. -/
def faceVertexInds (nd : Nat) (d : Dir) : List Nat :=
  let inds := List.range (2 ^ (nd - 1))
  let inds := if d.flipTangential then
      let stride : Int := flipStride nd d
      inds.map fun (i : Nat) => ((i : Int) + stride * (1 - 2 * (((i : Int) / stride) % 2))).toNat
    else inds
  if d.transpose then swap12 inds else inds

/-- The vertices of one side in natural order, connection.cpp:34-42. -/
def sideInds (nd : Nat) (d : Dir) (side : Bool) : List Nat :=
  let stride := 2 ^ (nd - (d.iDim side).val - 1)
  (List.range (2 * 2 ^ (nd - 1))).filter fun i => (i / stride) % 2 == (d.faceSign side).toNat

/-- `vertex_inds`, connection.cpp:29-50; `none` = access outside a vector. -/
def vertexInds (nd : Nat) (d : Dir) : Option (List Nat × List Nat) :=
  ((faceVertexInds nd d).mapM fun i => (sideInds nd d true)[i]?).map fun l => (sideInds nd d false, l)

/-! ## Face_permutation -/

variable {K : Type}

/-- Permute the block of `size` numbers at `base`. -/
def permBlock (base size : Nat) (π : Nat → Nat) (mem : Nat → K) : Nat → K :=
  fun j => if base ≤ j ∧ j < base + size then mem (base + π (j - base)) else mem j

/-- `transpose()`, Spatial.hpp:84-94, for the face of side 1 stored at address 0. An Eigen matrix is column major: entry (r, c)
is at `c*n + r`. -/
def transposeData (nd n nvar : Nat) (d : Dir) (mem : Nat → K) : Nat → K :=
  if d.transpose then
    if nd = 3 then (List.range nvar).foldl (fun mem i_var => permBlock (i_var * (n * n)) (n * n) (fun k => (k % n) * n + k / n) mem) mem
    else mem
  else mem

/-- `flip()`, Spatial.hpp:100-117. Reversing column wise maps entry (r, c) to (n-1-r, c). -/
def flipData (nd n nvar : Nat) (d : Dir) (mem : Nat → K) : Nat → K :=
  if d.flipTangential then
    if nd = 3 then
      let colwise := decide ((d.i0.val : Int) > 3 - d.i0.val - d.i1.val) != d.transpose
      (List.range nvar).foldl (fun mem i_var =>
        if colwise then permBlock (i_var * (n * n)) (n * n) (fun k => (k / n) * n + (n - 1 - k % n)) mem
        else permBlock (i_var * (n * n)) (n * n) (fun k => (n - 1 - k / n) * n + k % n) mem) mem
    else if nd = 2 then permBlock 0 (n * nvar) (fun k => (k / n) * n + (n - 1 - k % n)) mem
    else mem
  else mem

/-- `match_faces()`, Spatial.hpp:127. -/
def matchFaces (nd n nvar : Nat) (d : Dir) (mem : Nat → K) : Nat → K := flipData nd n nvar d (transposeData nd n nvar d mem)
/-- `restore()`, Spatial.hpp:128. -/
def restore (nd n nvar : Nat) (d : Dir) (mem : Nat → K) : Nat → K := transposeData nd n nvar d (flipData nd n nvar d mem)

/-! ## Refined_connection -/

/-- `stretch[i]` for `i` in 0, 1. -/
def strAt (str : Bool × Bool) (i : Nat) : Bool := if i = 0 then str.1 else str.2

/-- The loop of `math::stretched_ind`, math.hpp:192-197, from `i_dim` (given plus one) down to 0. -/
def stretchedLoop (nd ind : Nat) (str : Bool × Bool) : Nat → Nat → Nat → Nat
  | 0, _, stretched => stretched
  | i_dim + 1, stride, stretched =>
    if !strAt str i_dim then stretchedLoop nd ind str i_dim (stride * 2) (stretched + ((ind / 2 ^ (nd - 2 - i_dim)) % 2) * stride)
    else stretchedLoop nd ind str i_dim stride stretched

/-- `math::stretched_ind`, math.hpp:188-199. -/
def stretchedInd (nd ind : Nat) (str : Bool × Bool) : Nat := stretchedLoop nd ind str (nd - 1) 1 0

/-- `coarse_stretch()`, connection.hpp:208-212. -/
def coarseStretch (d : Dir) (str : Bool × Bool) : Bool × Bool :=
  (strAt str d.transpose.toNat, strAt str (!d.transpose).toNat)

/-- `n_fine`, connection.hpp:239-246. -/
def nFine (nd : Nat) (str : Bool × Bool) : Nat :=
  (List.range (nd - 1)).foldl (fun n i => if strAt str i then n / 2 else n) (2 ^ nd / 2)

/-- `any_str`, connection.hpp:240-246. -/
def anyStr (nd : Nat) (str : Bool × Bool) : Bool := (List.range (nd - 1)).any fun i => strAt str i

/-- The vertices merged by `Refined_connection`, connection.hpp:250-257: coarse vertex, fine element, vertex of the fine element.
`none` = access outside a vector. -/
def refinedVerts (nd : Nat) (d : Dir) (rev : Bool) (str : Bool × Bool) : Option (List (Nat × Nat × Nat)) :=
  (vertexInds nd d).bind fun vi =>
    let vi (side : Bool) := if side then vi.2 else vi.1
    (List.range (2 ^ nd / 2)).mapM fun i_face =>
      ((faceVertexInds nd d)[i_face]?).bind fun p =>
        let inds (side : Bool) := if side then stretchedInd nd p str else stretchedInd nd i_face str
        ((vi rev)[i_face]?).bind fun u => ((vi !rev)[i_face]?).map fun v => (u, inds !rev, v)

/-- Which fine element is joined to which mortar face, connection.hpp:258-266: pairs (fine element, mortar face). -/
def refinedFaces (nd : Nat) (d : Dir) (rev : Bool) (str : Bool × Bool) : Option (List (Nat × Nat)) :=
  (List.range (nFine nd str)).mapM fun i_face =>
    ((faceVertexInds nd d)[i_face]?).map fun p =>
      let swap := d.flipTangential && !strAt str (decide (2 * ((d.iDim rev).val : Int) > 3 - (d.iDim !rev).val)).toNat
      let i1 := if anyStr nd str then (decide (i_face ≠ swap.toNat)).toNat else p
      let inds (side : Bool) := if side then i1 else i_face
      (inds !rev, inds rev)

end Hexed.Connection

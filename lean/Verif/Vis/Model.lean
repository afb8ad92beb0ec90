import Verif.Tensor.Model
import Verif.Basis.Model
import Verif.RowIndex.Model
import Mathlib.Data.Real.Basic
set_option autoImplicit false
set_option linter.unusedVariables false

/-!
# Model of visualization data (src/Vis_data.cpp), `Solver::visualize_field`, `Solver::bounds_field` (src/Solver.cpp) and the XDMF writer (src/Xdmf_wrapper.cpp)

`double` is a real number. Reading or writing beyond the end of an array, violated size requirements of Eigen and infinite recursion are the outcome `none`. `u` is what new arrays contain before they are written.
-/

namespace Hexed.Vis
open Hexed.Tensor Hexed.Basis
open Hexed.RowIndex (RowIndex)

/-- `Eigen::VectorXd::LinSpaced(n, 0., 1.)(i)`: the only entry of a vector of size 1 is the upper limit. -/
noncomputable def linSpaced (n i : Nat) : ℝ := if n = 1 then 1 else (i : ℝ) / ((n : ℝ) - 1)

/-- `bas.interpolate(Eigen::VectorXd::LinSpaced(n_sample, 0., 1.))`, Vis_data.cpp:50, 88, 99. -/
noncomputable def interpMat (b : Nodes ℝ) (n_sample : Nat) : Mat ℝ := ⟨n_sample, b.n, fun s k => interpolateCpp b (linSpaced n_sample s) k⟩

/-- `bas.boundary()`; all entries exist (C45). -/
noncomputable def boundMat (b : Nodes ℝ) : Mat ℝ := ⟨2, b.n, fun s k => (Basis.boundary b s k).getD 0⟩

/-- The constructor, Vis_data.cpp:29-46: `vars`. `func q v` is variable `v` of the function at quadrature point `q`. -/
def vars (nq nv : Nat) (func : Nat → Nat → ℝ) : Vec ℝ := ⟨nq * nv, fun j => func (j % nq) (j / nq)⟩

/-- `for (int i_var ...) result(seqN(i_var*n_out, n_out)) = f(vars(seqN(i_var*n_in, n_in)))`. -/
def perVar (u : Nat → ℝ) (nv n_in n_out : Nat) (f : Vec ℝ → Option (Vec ℝ)) (vs : Vec ℝ) : Option (Vec ℝ) :=
  forLoop nv (fun i_var (result : Vec ℝ) => (readSeq vs (i_var * n_in) n_in 1).bind fun x => (f x).bind fun y => writeSeq result (i_var * n_out) n_out 1 y) ⟨n_out * nv, u⟩

/-- `Vis_data::interior`, Vis_data.cpp:86-95. -/
noncomputable def interior (b : Nodes ℝ) (u : Nat → ℝ) (nd nv : Nat) (vs : Vec ℝ) (n_sample : Nat) : Option (Vec ℝ) :=
  perVar u nv (MathFn.pow (K := Nat) b.n nd) (MathFn.pow (K := Nat) n_sample nd) (hypercube (interpMat b n_sample) u (nd + 1)) vs

/-- `Vis_data::face`, Vis_data.cpp:97-111. -/
noncomputable def face (b : Nodes ℝ) (u : Nat → ℝ) (nd nv : Nat) (vs : Vec ℝ) (i_dim : Nat) (is_positive : Bool) (n_sample : Nat) : Option (Vec ℝ) :=
  perVar u nv (MathFn.pow (K := Nat) b.n nd) (MathFn.pow (K := Nat) n_sample ((nd : Int) - 1))
    (fun var => (dimension ⟨1, b.n, fun _ k => (boundMat b).val is_positive.toNat k⟩ u var i_dim).bind fun fq => hypercube (interpMat b n_sample) u (nd + 1) fq) vs

/-- `qpoint_slab`, Vis_data.cpp:66-71: each entry is written once. -/
def slab (b : Nodes ℝ) (nd : Nat) (vs : Vec ℝ) (i_dim i_var i_qpoint : Nat) : Vec ℝ :=
  let nq := MathFn.pow (K := Nat) b.n nd
  let stride := MathFn.pow (K := Nat) b.n ((nd : Int) - 1 - i_dim)
  ⟨nq / b.n, fun j => vs.val (i_var * nq + i_qpoint * stride + (j / stride) * stride * b.n + j % stride)⟩

/-- `edge_qpoints.row(i_qpoint) = math::hypercube_matvec(boundary, qpoint_slab)` for all `i_qpoint`, Vis_data.cpp:64-74. -/
noncomputable def edgeQpoints (b : Nodes ℝ) (u : Nat → ℝ) (nd : Nat) (vs : Vec ℝ) (i_dim i_var : Nat) : Option (Nat → Nat → ℝ) :=
  forLoop b.n (fun i_qpoint (m : Nat → Nat → ℝ) =>
    (hypercube (boundMat b) u (nd + 1) (slab b nd vs i_dim i_var i_qpoint)).bind fun r =>
      if r.size = MathFn.pow (K := Nat) 2 ((nd : Int) - 1) * nd / nd then some fun q e => if q = i_qpoint then r.val e else m q e else none) fun _ _ => 0

/-- `result(seqN(i_var*n_sample, n_sample), seqN(i_dim*n_edge/n_dim, n_edge/n_dim)) = interp*edge_qpoints`, Vis_data.cpp:76-77. -/
noncomputable def writeEdges (b : Nodes ℝ) (nd n_sample i_dim i_var : Nat) (eq result : Nat → Nat → ℝ) : Nat → Nat → ℝ :=
  let n_edge := MathFn.pow (K := Nat) 2 ((nd : Int) - 1) * nd
  fun r c =>
    if i_var * n_sample ≤ r ∧ r < i_var * n_sample + n_sample ∧ i_dim * n_edge / nd ≤ c ∧ c < i_dim * n_edge / nd + n_edge / nd then
      ∑ k ∈ Finset.range b.n, (interpMat b n_sample).val (r - i_var * n_sample) k * eq k (c - i_dim * n_edge / nd)
    else result r c

/-- `Vis_data::edges`, Vis_data.cpp:48-84: the matrix `result` before it is resized to a vector (column major). -/
noncomputable def edgesMat (b : Nodes ℝ) (u : Nat → ℝ) (nd nv : Nat) (vs : Vec ℝ) (n_sample : Nat) : Option (Nat → Nat → ℝ) :=
  forLoop nd (fun i_dim (result : Nat → Nat → ℝ) =>
    forLoop nv (fun i_var (result : Nat → Nat → ℝ) =>
      (edgeQpoints b u nd vs i_dim i_var).bind fun eq => some (writeEdges b nd n_sample i_dim i_var eq result)) result) fun _ _ => 0

/-- `result.resize(result.size(), 1)`, Vis_data.cpp:82-83. -/
noncomputable def edges (b : Nodes ℝ) (u : Nat → ℝ) (nd nv : Nat) (vs : Vec ℝ) (n_sample : Nat) : Option (Vec ℝ) :=
  let n_edge := MathFn.pow (K := Nat) 2 ((nd : Int) - 1) * nd
  (edgesMat b u nd nv vs n_sample).bind fun m => some ⟨nv * n_sample * n_edge, fun j => m (j % (nv * n_sample)) (j / (nv * n_sample))⟩

/-- `sample_qpoint_data` for one variable and one point, Vis_data.cpp:7-27: `var` is multiplied along one dimension at a time, the last first. -/
noncomputable def samplePoint (b : Nodes ℝ) (u : Nat → ℝ) (nd : Nat) (var : Vec ℝ) (coords : Nat → ℝ) : Option ℝ :=
  ((List.range nd).reverse.foldlM (fun (var : Vec ℝ) i_dim => dimension ⟨1, b.n, fun _ k => interpolateCpp b (coords i_dim) k⟩ u var i_dim) var).bind fun var =>
    if 0 < var.size then some (var.val 0) else none

/-- `Vis_data::sample(ref_coords)(i_var, i_sample)`, Vis_data.cpp:7-27, 113-116. -/
noncomputable def sample (b : Nodes ℝ) (u : Nat → ℝ) (nd : Nat) (vs : Vec ℝ) (coords : Nat → ℝ) (i_var : Nat) : Option ℝ :=
  let nq := MathFn.pow (K := Nat) b.n nd
  (readSeq vs (i_var * nq) nq 1).bind fun var => samplePoint b u nd var coords

/-! ## bounds_field -/

/-- `var.minCoeff()`, `var.maxCoeff()` for `var = vars(seqN(i_var*n_block, n_block))`, Solver.cpp:1185-1187: require at least one entry. -/
noncomputable def coeff (f : ℝ → ℝ → ℝ) (v : Vec ℝ) (start n : Nat) : Option ℝ :=
  (readSeq v start n 1).bind fun x => if n = 0 then none else some ((List.range n).foldl (fun a i => f a (x.val i)) (x.val 0))

/-- The body of the loop over variables, Solver.cpp:1184-1188. -/
noncomputable def boundsStep (v : Vec ℝ) (n_block i_var : Nat) (bounds : Nat → ℝ × ℝ) : Option (Nat → ℝ × ℝ) :=
  (coeff min v (i_var * n_block) n_block).bind fun lo => (coeff max v (i_var * n_block) n_block).bind fun hi =>
    some (Function.update bounds i_var (min lo (bounds i_var).1, max hi (bounds i_var).2))

/-- `Solver::bounds_field`, Solver.cpp:1171-1191. `huge` is `std::numeric_limits<double>::max()`; `elems` lists the values `func q v` of the function in each element. -/
noncomputable def boundsField (b : Nodes ℝ) (u : Nat → ℝ) (huge : ℝ) (nd nv : Nat) (elems : List (Nat → Nat → ℝ)) (n_sample : Nat) : Option (Nat → ℝ × ℝ) :=
  elems.foldlM (fun (bounds : Nat → ℝ × ℝ) func =>
    (interior b u nd nv (vars (MathFn.pow (K := Nat) b.n nd) nv func) n_sample).bind fun v =>
      forLoop nv (boundsStep v (MathFn.pow (K := Nat) n_sample nd)) bounds) fun _ => (huge, -huge)

/-! ## Xdmf_wrapper -/

/-- The data members that change, Xdmf_wrapper.hpp: the arrays of topology, geometry and attributes, and the number of blocks. -/
structure Xdmf where
  topo : List Nat
  geom : List ℝ
  attrs : Nat → List ℝ
  i_block : Nat

/-- `_node_inds(i_vert, i_dim)`, Xdmf_wrapper.cpp:28-49. -/
def nodeInds (n_dim_topo i_vert i_dim : Nat) : Nat :=
  if n_dim_topo = 1 then ([[0], [1]].getD i_vert []).getD i_dim 0
  else if n_dim_topo = 2 then ([[0, 0], [1, 0], [1, 1], [0, 1]].getD i_vert []).getD i_dim 0
  else ([[0, 0, 0], [1, 0, 0], [1, 1, 0], [0, 1, 0], [0, 0, 1], [1, 0, 1], [1, 1, 1], [0, 1, 1]].getD i_vert []).getD i_dim 0

/-- `i_node`, Xdmf_wrapper.cpp:60-66. -/
def iNode (n_dim_topo row_size i_block i_elem i_vert : Nat) : Nat :=
  (List.range n_dim_topo).foldl (fun i_node i_dim =>
    let row := (i_elem / (RowIndex.new n_dim_topo (row_size - 1) i_dim).stride) % (row_size - 1) + nodeInds n_dim_topo i_vert i_dim
    i_node + row * (RowIndex.new n_dim_topo row_size i_dim).stride) (i_block * MathFn.pow (K := Nat) row_size n_dim_topo)

/-- `Xdmf_wrapper::write_block`, Xdmf_wrapper.cpp:55-82. The size of the arrays `pos` and `vars` is the caller's responsibility. -/
def writeBlock (n_dim_topo n_dim_geom n_var : Nat) (x : Xdmf) (row_size : Nat) (pos vs : Nat → ℝ) : Xdmf :=
  let n_point := MathFn.pow (K := Nat) row_size n_dim_topo
  { topo := x.topo ++ (List.range (MathFn.pow (K := Nat) (row_size - 1) n_dim_topo)).flatMap fun i_elem =>
      (List.range (MathFn.pow (K := Nat) 2 n_dim_topo)).map fun i_vert => iNode n_dim_topo row_size x.i_block i_elem i_vert
    geom := x.geom ++ (List.range n_point).flatMap fun i_point => (List.range n_dim_geom).map fun i_dim => pos (i_dim * n_point + i_point)
    attrs := fun i_var => if i_var < n_var then x.attrs i_var ++ (List.range n_point).map fun i_point => vs (i_var * n_point + i_point) else x.attrs i_var
    i_block := x.i_block + 1 }

/-! ## visualize_field -/

/-- The position and the output variables of an element at its quadrature points. -/
structure Elem where
  pos : Nat → Nat → ℝ
  out : Nat → Nat → ℝ

/-- The body of the loop over elements with `wireframe = false`, Solver.cpp:1222-1237. -/
noncomputable def fieldBlock (b : Nodes ℝ) (u : Nat → ℝ) (nd nv n_sample : Nat) (x : Xdmf) (e : Elem) : Option Xdmf :=
  let nq := MathFn.pow (K := Nat) b.n nd
  (interior b u nd nd (vars nq nd e.pos) n_sample).bind fun pos => (interior b u nd nv (vars nq nv e.out) n_sample).bind fun out =>
    some (writeBlock nd nd nv x n_sample pos.val out.val)

/-- The body of the loop over elements with `wireframe = true`, Solver.cpp:1222-1231. -/
noncomputable def wireBlock (b : Nodes ℝ) (u : Nat → ℝ) (nd nv n_sample : Nat) (x : Xdmf) (e : Elem) : Option Xdmf :=
  let nq := MathFn.pow (K := Nat) b.n nd
  (edges b u nd nd (vars nq nd e.pos) n_sample).bind fun pos => (edges b u nd nv (vars nq nv e.out) n_sample).bind fun out =>
    some ((List.range (MathFn.pow (K := Nat) 2 ((nd : Int) - 1) * nd)).foldl (fun (x : Xdmf) i_edge =>
      writeBlock 1 nd nv x n_sample (fun j => pos.val (i_edge * nd * n_sample + j)) fun j => out.val (i_edge * nv * n_sample + j)) x)

/-- `Solver::visualize_field` in the format `xdmf`, Solver.cpp:1215-1239, in two or three dimensions: what is written. The constructor rejects other dimensions, and wireframes in one dimension are rejected by an assertion. -/
noncomputable def visualizeField (b : Nodes ℝ) (u : Nat → ℝ) (nd nv n_sample : Nat) (wireframe : Bool) (elems : List Elem) : Option Xdmf :=
  if nd = 2 ∨ nd = 3 then
    elems.foldlM (fun x e => if wireframe then wireBlock b u nd nv n_sample x e else fieldBlock b u nd nv n_sample x e) ⟨[], [], fun _ => [], 0⟩
  else none

/-! ## visualize_surface -/

/-- A boundary connection: the serial number of its boundary condition, and the position and the output variables at the quadrature points of its face. -/
structure BoundFace where
  bc : Nat
  data : Elem

/-- The body of the loop over boundary connections, Solver.cpp:1254-1304. The columns of the matrices `interp_pos` and `interp_vars` are stored one after the other, so filling them column by column is `perVar`; the functions applied to each column are those of `interior` and `face` with one dimension less. -/
noncomputable def surfaceBlock (b : Nodes ℝ) (u : Nat → ℝ) (nd nv n_sample : Nat) (wireframe : Bool) (bc_sn : Nat) (x : Xdmf) (c : BoundFace) : Option Xdmf :=
  if c.bc = bc_sn then
    let nfq := MathFn.pow (K := Nat) b.n nd / b.n
    if wireframe then
      forLoop (nd - 1) (fun i_dim (x : Xdmf) => forLoop 2 (fun i_sign (x : Xdmf) =>
        (face b u (nd - 1) nd (vars nfq nd c.data.pos) i_dim (i_sign == 1) n_sample).bind fun pos =>
          (face b u (nd - 1) nv (vars nfq nv c.data.out) i_dim (i_sign == 1) n_sample).bind fun out => some (writeBlock 1 nd nv x n_sample pos.val out.val)) x) x
    else
      (interior b u (nd - 1) nd (vars nfq nd c.data.pos) n_sample).bind fun pos => (interior b u (nd - 1) nv (vars nfq nv c.data.out) n_sample).bind fun out =>
        some (writeBlock (nd - 1) nd nv x n_sample pos.val out.val)
  else some x

/-- `Solver::visualize_surface` in the format `xdmf`, Solver.cpp:1241-1307: what is written. `none` also stands for the assertions on the dimension. -/
noncomputable def visualizeSurface (b : Nodes ℝ) (u : Nat → ℝ) (nd nv n_sample : Nat) (wireframe : Bool) (bc_sn : Nat) (cons : List BoundFace) : Option Xdmf :=
  if nd = 3 ∨ nd = 2 ∧ wireframe = false then cons.foldlM (surfaceBlock b u nd nv n_sample wireframe bc_sn) ⟨[], [], fun _ => [], 0⟩ else none

end Hexed.Vis

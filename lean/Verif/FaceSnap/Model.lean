import Verif.Metric.Model
import Verif.Tensor.Model
import Verif.Basis.Model
set_option autoImplicit false
set_option linter.unusedVariables false

/-!
# Model of `Geom_mbc::snap_node_adj` (src/Boundary_condition.cpp:510-587) (C86)

`double` is `ℝ`. Points are functions of the number of the coordinate that are 0 from `n_dim` on. The geometry is given by the two functions of `Surface_geom`. Memory of new vectors is the
parameter `u`.
-/

namespace Hexed.FaceSnap
open Hexed.Spatial Hexed.Metric Hexed.Tensor
noncomputable section

/-- Outcome of a call. `ub`: Eigen's requirements are violated or a recursion does not end. -/
inductive Out (A : Type)
  | ok (a : A)
  | exn
  | ub

def Out.bind {A B : Type} : Out A → (A → Out B) → Out B
  | .ok a, f => f a
  | .exn, _ => .exn
  | .ub, _ => .ub

/-- A product of a matrix and a vector as an outcome. -/
def ofTensor {A : Type} : Option A → Out A
  | some a => .ok a
  | none => .ub

/-- `Surface_geom`, Surface_geom.hpp:23-42: `intersections(point0, point1)`, and `nearest_point(point, huge, guess)`, which is empty (`none`) if there is none. -/
structure Geometry where
  intersections : (Nat → ℝ) → (Nat → ℝ) → List ℝ
  nearest : (Nat → ℝ) → ℝ → Option (Nat → ℝ)

/-- An element: coordinates of its vertices, `node_adjustments()`, `nominal_size()`, `needs_snapping`, `snapping_problem`; `deformed` says that `node_adjustments()` is not null. -/
structure Elem where
  vert : Nat → Nat → ℝ
  adj : Mem
  size : ℝ
  needs : Bool
  problem : Bool
  deformed : Bool

/-- `i_row_start`, Element.cpp:78-85: pairs (`i_row_start`, `face_stride`). -/
def rowStart (nd n i_dim k : Nat) : Nat :=
  ((List.range nd).reverse.foldl (fun (s : Nat × Nat) j_dim =>
    if i_dim ≠ j_dim then (s.1 + k / s.2 % n * n ^ (nd - 1 - j_dim), s.2 * n) else s) (0, 1)).1

/-- `face_position(basis, i_face, i_face_qpoint)[i]`, Element.cpp:72-97, of a deformed element. -/
def facePosition (b : Basis.Nodes ℝ) (nd : Nat) (e : Elem) (i_face k i : Nat) : ℝ :=
  ∑ x ∈ Finset.range b.n, Basis.interpolate b x ((i_face % 2 : Nat) : ℝ) *
    warpedPosition b nd e.adj (rowStart nd b.n (i_face / 2) k + b.n ^ (nd - 1 - i_face / 2) * x) fun v => e.vert v i

/-- `basis.interpolate(lob.nodes())`, Basis.cpp:19-30. -/
def interpMat (b l : Basis.Nodes ℝ) : Mat ℝ := ⟨l.n, b.n, fun i j => Basis.interpolateCpp b (l.node i) j⟩

/-- `lob_pos[face_sign]`, Boundary_condition.cpp:522-533, 559-575: positions of all sample points of the face, from those of its quadrature points. -/
def samplePos (b l : Basis.Nodes ℝ) (u : Nat → ℝ) (nd : Nat) (e : Elem) (i_face : Nat) : Out (Nat → Nat → ℝ) :=
  ofTensor (((List.range nd).mapM fun i => hypercube (interpMat b l) u nd ⟨b.n ^ (nd - 1), fun k => facePosition b nd e i_face k i⟩).map
    fun cols q i => if h : i < cols.length then cols[i].val q else 0)

/-- The loop over intersections, Boundary_condition.cpp:539-547: (`best_adj`, `distance`). -/
def bestAdj (sign : Nat) (sects : List ℝ) : ℝ × ℝ :=
  sects.foldl (fun s sect => if |sect - (sign : ℝ)| < s.2 then (sect - (sign : ℝ), |sect - (sign : ℝ)|) else s) (0, 1)

/-- `basis.diff_mat()`. -/
def diffMat (b : Basis.Nodes ℝ) : Mat ℝ := ⟨b.n, b.n, fun i j => Basis.derivative b i j⟩

/-- `derivatives`, Boundary_condition.cpp:552-558. -/
def derivatives (b : Basis.Nodes ℝ) (u : Nat → ℝ) (nd : Nat) (a : Vec ℝ) : Option (List (Vec ℝ)) :=
  if nd < 2 then some []
  else (dimension (diffMat b) u a 0).bind fun d0 =>
    if nd = 3 then (dimension (diffMat b) u a 1).bind fun d1 => (dimension (diffMat b) u d0 1).map fun d01 => [d0, d1, d01]
    else some [d0]

/-- Writing the adjustments of a face, Boundary_condition.cpp:519. -/
def setFace (nfq i_face : Nat) (adj : Mem) (a : Nat → ℝ) : Mem := fun j => if i_face * nfq ≤ j ∧ j < (i_face + 1) * nfq then a (j - i_face * nfq) else adj j

/-- The squared norm and the dot product of the first `nd` components. -/
def dot (nd : Nat) (x y : Nat → ℝ) : ℝ := ∑ i ∈ Finset.range nd, x i * y i

/-- The loop over the three points per direction, Boundary_condition.cpp:578-582. -/
def projections (g : Geometry) (nd sign : Nat) (size : ℝ) (p0 p1 : Nat → Nat → ℝ) : Nat → Out (Nat → ℝ)
  | 0 => .ok fun _ => 0
  | q + 1 => (projections g nd sign size p0 p1 q).bind fun a =>
      let p := if sign = 0 then p0 q else p1 q
      let diff := fun i => p1 q i - p0 q i
      match g.nearest p size with
      | none => .exn
      | some y => .ok fun r => if r = q then dot nd (fun i => y i - p i) diff / (dot nd diff diff + 1e-12 * size) else a r

/-- The main part, Boundary_condition.cpp:513-551: the adjustments at the quadrature points and whether there is a point without a near intersection. `e` has no adjustments on this face. -/
def mainAdj (b : Basis.Nodes ℝ) (l : Basis.Nodes ℝ) (u : Nat → ℝ) (g : Geometry) (nd : Nat) (e : Elem) (d sign : Nat) : Out (Vec ℝ × Bool) :=
  (samplePos b l u nd e (2 * d)).bind fun p0 => (samplePos b l u nd e (2 * d + 1)).bind fun p1 =>
    let best := fun q => bestAdj sign (g.intersections (p0 q) (p1 q))
    (ofTensor (hypercube (interpMat l b) u nd ⟨l.n ^ (nd - 1), fun q => (best q).1⟩)).bind fun a =>
      .ok (a, (List.range (l.n ^ (nd - 1))).any fun q => decide (999 / 1000 < (best q).2))

/-- The fallback, Boundary_condition.cpp:561-585. -/
def fallback (b l : Basis.Nodes ℝ) (u : Nat → ℝ) (g : Geometry) (nd : Nat) (e : Elem) (d sign : Nat) : Out (Vec ℝ) :=
  (samplePos b l u nd e (2 * d)).bind fun p0 => (samplePos b l u nd e (2 * d + 1)).bind fun p1 =>
    (projections g nd sign e.size p0 p1 (l.n ^ (nd - 1))).bind fun adj1 => ofTensor (hypercube (interpMat l b) u nd ⟨l.n ^ (nd - 1), adj1⟩)

/-- `Geom_mbc::snap_node_adj`, Boundary_condition.cpp:510-587, for the face in dimension `d` on side `sign`; `lob k` is `Gauss_lobatto(k)`. In exact arithmetic the assertion at the end holds. -/
def snapNodeAdj (b : Basis.Nodes ℝ) (lob : Nat → Basis.Nodes ℝ) (u : Nat → ℝ) (g : Geometry) (nd : Nat) (e : Elem) (d sign : Nat) : Out Elem :=
  if e.deformed = false ∨ e.needs = false then .ok e
  else
    let nfq := b.n ^ nd / b.n
    let write := fun (a : Nat → ℝ) (p : Bool) => { e with adj := setFace nfq (2 * d + sign) e.adj a, problem := p }
    let e0 := write (fun _ => 0) false
    (mainAdj b (lob (max 2 (b.n - 1))) u g nd e0 d sign).bind fun r =>
      (ofTensor (derivatives b u nd r.1)).bind fun ds =>
        let problem := r.2 || ds.any fun v => (List.range v.size).any fun j => decide (1 < |v.val j|)
        if problem = false then .ok (write r.1.val false)
        else if 3 < b.n then (fallback b (lob 3) u g nd e0 d sign).bind fun a => .ok (write a.val true)
        else .ok (write (fun _ => 0) true)

end
end Hexed.FaceSnap

import Verif.FaceSnap.Model
import Verif.StateFile.Model
import Verif.Pde.Model
set_option autoImplicit false
set_option linter.unusedVariables false

/-!
# Model of `Solver::snap_faces` (src/Solver_snap_faces.cpp) (C87)

The kernels are those of `Spatial`. Loops over boundary connections hold the lock of the element; they run in the order of a list here, and the theorems hold for every list. A loop over all elements
that writes to each its own data is modelled as a function. `none`/`ub` is an access out of range.
-/

namespace Hexed.SnapMesh
open Hexed.Spatial Hexed.Pde
open Hexed.StateFile (runWriteFace)
open Hexed.FaceSnap (Elem Geometry Out snapNodeAdj interpMat setFace)
open Hexed.RowIndex (RowIndex rows)
noncomputable section

/-- A `Boundary_connection`: `element()`, `i_dim()`, `inside_face_sign()`, the ghost storage, whether `bound_cond_serial_n()` is `surface_bc_sn()`, and the mesh boundary condition: that of a geometry or
one whose `snap_node_adj` does nothing (Boundary_condition.hpp:231, 242). -/
structure Bound where
  elem : Nat
  dim : Nat
  sign : Nat
  ghost : Nat
  surface : Bool
  geom : Option Geometry

/-- The mesh as `snap_faces` uses it: the kernel mesh, the boundary connections, and for each refined connection of the deformed mesh its fine connections. -/
structure Setup where
  mesh : Mesh
  bounds : List Bound
  refCons : List (List ConRec)

/-- The numerical data and the elements' geometric data. -/
structure Data where
  world : World
  elem : Nat → Elem

/-- One entry of a table replaced. -/
def put {A : Type} (f : Nat → A) (i : Nat) (x : A) : Nat → A := fun j => if j = i then x else f j

/-- `math::sign`, math.hpp:52-55. -/
def sgn (sign : Nat) : ℝ := if sign = 0 then -1 else 1

/-- One face, Solver_snap_faces.cpp:17-19. -/
def snapOne (b : Basis.Nodes ℝ) (lob : Nat → Basis.Nodes ℝ) (u : Nat → ℝ) (nd : Nat) (el : Nat → Elem) (c : Bound) : Out (Nat → Elem) :=
  match c.geom with
  | none => .ok el
  | some g => (snapNodeAdj b lob u g nd (el c.elem) c.dim c.sign).bind fun e => .ok (put el c.elem e)

/-- Every surface snapped by itself, Solver_snap_faces.cpp:15-20. -/
def snapAll (b : Basis.Nodes ℝ) (lob : Nat → Basis.Nodes ℝ) (u : Nat → ℝ) (nd : Nat) : List Bound → (Nat → Elem) → Out (Nat → Elem)
  | [], el => .ok el
  | c :: l, el => (snapOne b lob u nd el c).bind (snapAll b lob u nd l)

/-- Whether entry `k` is one of the `n_dof()` numbers of the state. -/
def isDof (n nd : Nat) (k : Nat × Nat) : Prop := k.1 < nd + 2 ∧ k.2 < n ^ nd
instance (n nd : Nat) (k : Nat × Nat) : Decidable (isDof n nd k) := by unfold isDof; infer_instance

/-- The state is kept in the residual cache, Solver_snap_faces.cpp:24-29. -/
def backup (n : Nat) (m : Mesh) (w : World) : World := { w with cache := fun e k => if e ∈ m.elems ∧ isDof n m.nd k then w.state e k else w.cache e k }

/-- Solver_snap_faces.cpp:31-35. -/
def clear (n : Nat) (m : Mesh) (w : World) : World := { w with state := fun e k => if e ∈ m.elems ∧ isDof n m.nd k then 0 else w.state e k }

/-- Where the adjustments of the face of a connection start, Solver_snap_faces.cpp:44, 82. -/
def adjStart (n nd : Nat) (c : Bound) : Nat := (2 * c.dim + c.sign) * n ^ nd / n

/-- The adjustments of one surface face in variable 0, Solver_snap_faces.cpp:37-51. -/
def loadOne (n nd : Nat) (el : Nat → Elem) (st : Nat → Arr) (c : Bound) : Nat → Arr :=
  if c.surface && (el c.elem).deformed then
    put st c.elem ((rows (RowIndex.new nd n c.dim)).foldl (fun a r => writeRow 1 (fun _ _ => sgn c.sign * (el c.elem).adj (adjStart n nd c + r.i_face_qpoint)) a 0 r 0) (st c.elem))
  else st

/-- The boundary condition `Copy`, Solver_snap_faces.cpp:54-60, Boundary_condition.cpp:12-22, for one connection. -/
def copyGhost (n nd : Nat) (buf : Buf → Bool → Mem) (c : Bound) : Buf → Bool → Mem :=
  fun b l => if b = .ghost c.ghost then fun a => if a < (nd + 2) * n ^ (nd - 1) then buf (.elem c.elem (2 * c.dim + c.sign)) l a else buf b l a else buf b l

/-- One fine connection in the second sweep, Solver_snap_faces.cpp:66-69: `state(1, false) + nfq*n_var` is the LDG part of side 1 (connection.hpp:60-65, 79-84). -/
def doubleFine (nfq : Nat) (buf : Buf → Bool → Mem) (c : ConRec) : Buf → Bool → Mem :=
  let buf := setBuf buf (c.side false) false fun a => if a < nfq then buf (c.side false) false a * 2 else buf (c.side false) false a
  setBuf buf (c.side true) true fun a => if a < nfq then 0 else buf (c.side true) true a

/-- All refined connections, Solver_snap_faces.cpp:61-72. -/
def doubleRefs (nfq : Nat) : List (List ConRec) → (Buf → Bool → Mem) → Option (Buf → Bool → Mem)
  | [], buf => some buf
  | (c0 :: c1 :: _) :: l, buf => doubleRefs nfq l (doubleFine nfq (doubleFine nfq buf c0) c1)
  | _ :: _, _ => none

/-- `Neighbor` of `Smooth_art_visc` without matching of faces, on the deformed connections, Solver_snap_faces.cpp:73. -/
def average (n : Nat) (m : Mesh) (w : World) : World :=
  (m.cons.filter ConRec.deformed).foldl (onCon fun c st => neighbor (smoothArtVisc m.nd 1 1) m.nd n false c.dir c.normal st) w

/-- A row after its values at the ends have been replaced, Solver_snap_faces.cpp:85-93; `ends s` are the new values. -/
def newRow (b l : Basis.Nodes ℝ) (row ends : Nat → ℝ) (i : Nat) : ℝ :=
  let lrow := fun k => ∑ j ∈ Finset.range b.n, (interpMat b l).val k j * row j
  let lrow0 := fun k => if k = 0 then ends 0 else lrow k
  let lrow1 := fun k => if k = l.n - 1 then ends 1 else lrow0 k
  ∑ k ∈ Finset.range l.n, (interpMat l b).val i k * lrow1 k

/-- All rows along `j`, Solver_snap_faces.cpp:84-97. -/
def storeDim (b l : Basis.Nodes ℝ) (nd : Nat) (ldg : Nat → Mem) (a : Arr) (j : Nat) : Arr :=
  (rows (RowIndex.new nd b.n j)).foldl (fun a r => writeRow 1 (fun i _ => newRow b l (fun k => readRow a 0 r k 0) (fun s => ldg (2 * j + s) r.i_face_qpoint) i) a 0 r 0) a

/-- The new adjustments of one face, Solver_snap_faces.cpp:75-104. -/
def storeOne (b l : Basis.Nodes ℝ) (nd : Nat) (buf : Buf → Bool → Mem) (s : (Nat → Arr) × (Nat → Elem)) (c : Bound) : (Nat → Arr) × (Nat → Elem) :=
  if c.surface && (s.2 c.elem).deformed then
    let a := ((List.range nd).filter fun j => j ≠ c.dim).foldl (storeDim b l nd fun f => buf (.elem c.elem f) true) (s.1 c.elem)
    let adj := (rows (RowIndex.new nd b.n c.dim)).foldl (fun (adj : Mem) r i => if i = adjStart b.n nd c + r.i_face_qpoint then sgn c.sign * a (0, r.i_qpoint 0) else adj i) (s.2 c.elem).adj
    (put s.1 c.elem a, put s.2 c.elem { s.2 c.elem with adj := adj })
  else s

/-- One sweep, Solver_snap_faces.cpp:30-106. The equations used by `compute_write_face`, `compute_prolong` and `compute_restrict` are the Navier–Stokes equations (kernels_convective.cpp:43-57). -/
def sweep (mu kappa : Transport) (b l : Basis.Nodes ℝ) (bs : BasisData) (s : Setup) (second : Bool) (d : Data) : Option Data :=
  let nd := s.mesh.nd
  let w := clear b.n s.mesh d.world
  let w := { w with state := s.bounds.foldl (loadOne b.n nd d.elem) w.state }
  let w := runProlong (ns nd false mu kappa) bs s.mesh false false (runWriteFace mu kappa bs s.mesh w)
  let w := { w with buf := s.bounds.foldl (copyGhost b.n nd) w.buf }
  (if second then doubleRefs (b.n ^ nd / b.n) s.refCons w.buf else some w.buf).bind fun buf =>
    let w := average b.n s.mesh { w with buf := buf }
    let w := runRestrict (ns nd false mu kappa) bs s.mesh false true w
    let r := s.bounds.foldl (storeOne b l nd w.buf) (w.state, d.elem)
    some ⟨{ w with state := r.1 }, r.2⟩

/-- The loop over sweeps. -/
def sweeps (mu kappa : Transport) (b l : Basis.Nodes ℝ) (bs : BasisData) (s : Setup) : Nat → Data → Option Data
  | 0, d => some d
  | k + 1, d => (sweeps mu kappa b l bs s k d).bind (sweep mu kappa b l bs s (decide (k ≠ 0)))

/-- Solver_snap_faces.cpp:107-112. -/
def restoreState (n : Nat) (m : Mesh) (w : World) : World := { w with state := fun e k => if e ∈ m.elems ∧ isDof n m.nd k then w.cache e k else w.state e k }

/-- `Solver::snap_faces()`, Solver_snap_faces.cpp:9-113. `lob k` is `Gauss_lobatto(k)`. -/
def snapFaces (mu kappa : Transport) (b : Basis.Nodes ℝ) (lob : Nat → Basis.Nodes ℝ) (u : Nat → ℝ) (bs : BasisData) (s : Setup) (d : Data) : Out Data :=
  (snapAll b lob u s.mesh.nd s.bounds d.elem).bind fun el =>
    match sweeps mu kappa b (lob (max 2 (b.n - 1))) bs s (s.mesh.nd - 1) ⟨backup b.n s.mesh d.world, el⟩ with
    | none => .ub
    | some d => .ok { d with world := restoreState b.n s.mesh d.world }

end
end Hexed.SnapMesh

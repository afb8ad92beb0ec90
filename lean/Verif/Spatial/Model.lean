import Verif.Basis.Filter
import Verif.RowIndex.Props
import Verif.Connection.Model
set_option autoImplicit false
set_option linter.unusedVariables false

/-!
# Model of the spatial discretization kernels (include/Spatial.hpp, src/kernels_convective.cpp, src/kernels_diffusive.cpp)

The kernels for elements, connections and refined faces, for any PDE, and the sequences in which they are run. Numbers are real
numbers: rounding is not modelled. Loops that write every entry of an array exactly once, from data they do not write, are modelled as
functions. Arrays `double a [n_var][n_qpoint]` are functions of (variable, point); pointer arithmetic that runs from one variable
block into the next is kept: a pointer to variable `v` is the number `v`, and the entry `i_var*n_qpoint + i_qpoint` after it is
variable `v + i_var` at that point.
-/

namespace Hexed.Spatial
open Hexed.Connection (Dir matchFaces restore strAt)
open Hexed.RowIndex (RowIndex rows)

/-- An array with indices (variable, quadrature point). -/
abbrev Arr := Nat × Nat → ℝ
/-- Memory behind a `double*`. -/
abbrev Mem := Nat → ℝ

/-- The members of a `Basis` used by the kernels. -/
structure BasisData where
  n : Nat
  weight : Nat → ℝ
  diff : Nat → Nat → ℝ
  bound : Nat → Nat → ℝ
  filter : Nat → Nat → ℝ
  prolong : Nat → Nat → Nat → ℝ
  restrict : Nat → Nat → Nat → ℝ

/-- What a PDE class provides (include/pde.hpp) for a fixed number of dimensions and row size. A function of the state at one point
takes the variables stored at that point. -/
structure Pde where
  hasDiff : Bool
  hasConv : Bool
  hasSource : Bool
  nUpdate : Nat
  nExtrap : Nat
  /-- `fetch_extrap` -/
  fetchExtrap : (Nat → ℝ) → Nat → ℝ
  /-- `write_update`: update, whether critical, the stored variables before; result: the stored variables after -/
  writeUpdate : (Nat → ℝ) → Bool → (Nat → ℝ) → Nat → ℝ
  /-- `Computation<n_dim>`: `fetch_state` and `compute_flux_conv` with `normal(j_dim, i_dim)`; result: (i_var, i_dim) -/
  fluxConv : (Nat → ℝ) → (Nat → Nat → ℝ) → Nat → Nat → ℝ
  /-- `compute_flux_diff` with `normal` and `gradient(i_var, i_dim)` -/
  fluxDiff : (Nat → ℝ) → (Nat → Nat → ℝ) → (Nat → Nat → ℝ) → Nat → Nat → ℝ
  /-- `compute_source` -/
  source : (Nat → ℝ) → Nat → ℝ
  /-- `Computation<1>`: `fetch_extrap_state` and `compute_flux_conv` with `normal(j_dim)` -/
  faceFlux : (Nat → ℝ) → (Nat → ℝ) → Nat → ℝ
  /-- `Computation<1>`: `compute_char_speed` -/
  faceSpeed : (Nat → ℝ) → ℝ
  /-- `Computation<1>`: `update_state` -/
  faceUpdate : (Nat → ℝ) → Nat → ℝ

/-! ## Row_rw -/

/-- Assignment to one entry. -/
def set2 (a : Arr) (k : Nat × Nat) (x : ℝ) : Arr := fun j => if j = k then x else a j

/-- `Row_rw::read_row`, Row_rw.hpp:29-38: entry (i_row, i_var). -/
def readRow (data : Arr) (base : Nat) (r : RowIndex) (i_row i_var : Nat) : ℝ := data (base + i_var, r.i_qpoint i_row)

/-- `Row_rw::write_row`, Row_rw.hpp:41-49. -/
def writeRow (nvar : Nat) (w : Nat → Nat → ℝ) (data : Arr) (base : Nat) (r : RowIndex) (coef : ℝ) : Arr :=
  (List.range nvar).foldl (fun data i_var => (List.range r.row_size).foldl (fun data i_row =>
    set2 data (base + i_var, r.i_qpoint i_row) (coef * data (base + i_var, r.i_qpoint i_row) + w i_row i_var)) data) data

/-- `Row_rw::read_bound`, Row_rw.hpp:52-61: entry (is_positive, i_var). -/
def readBound (faces : Nat → Mem) (r : RowIndex) (is_positive i_var : Nat) : ℝ :=
  faces (r.i_dim * 2 + is_positive) (i_var * r.n_fqpoint + r.i_face_qpoint)

/-- Assignment through one of the pointers `faces`. -/
def setFace (faces : Nat → Mem) (i_face addr : Nat) (x : ℝ) : Nat → Mem :=
  fun f a => if f = i_face ∧ a = addr then x else faces f a

/-- `Row_rw::write_bound`, Row_rw.hpp:64-71. -/
def writeBound (nvar : Nat) (b : Nat → Nat → ℝ) (faces : Nat → Mem) (r : RowIndex) : Nat → Mem :=
  (List.range nvar).foldl (fun faces i_var => (List.range 2).foldl (fun faces is_positive =>
    setFace faces (r.i_dim * 2 + is_positive) (i_var * r.n_fqpoint + r.i_face_qpoint) (b is_positive i_var)) faces) faces

/-- A matrix product `m*row` for the rows 0 .. of `m` with `n` columns. -/
def matRow (n : Nat) (m : Nat → Nat → ℝ) (row : Nat → Nat → ℝ) (i v : Nat) : ℝ := ((List.range n).map fun j => m i j * row j v).sum

/-- The loops `for i_dim ... for (Row_index ind(n_dim, row_size, i_dim); ind; ++ind)`. -/
def overRows {α : Type} (nd n : Nat) (f : α → Nat → RowIndex → α) (a : α) : α :=
  (List.range nd).foldl (fun a i_dim => (rows (RowIndex.new nd n i_dim)).foldl (fun a r => f a i_dim r) a) a

/-! ## Write_face -/

/-- `Write_face::operator()(read, faces)`, Spatial.hpp:41-57. -/
def writeFace (p : Pde) (bs : BasisData) (nd : Nat) (state : Arr) (faces : Nat → Mem) : Nat → Mem :=
  let extrap : Arr := fun k => p.fetchExtrap (fun v => state (v, k.2)) k.1
  overRows nd bs.n (fun faces i_dim r => writeBound p.nExtrap (matRow bs.n bs.bound (readRow extrap 0 r)) faces r) faces

/-! ## Prolong_refined and Restrict_refined -/

/-- Number of fine faces, Spatial.hpp:165-166, 243-244. -/
def nFace (nd : Nat) (str : Bool × Bool) : Nat := (List.range (nd - 1)).foldl (fun nf i_dim => nf / (1 + (strAt str i_dim).toNat)) (2 ^ (nd - 1))

/-- `i_half`, Spatial.hpp:183-186, 259-262. -/
def iHalf (nd : Nat) (str : Bool × Bool) (i_dim i_face : Nat) : Nat :=
  (i_face / (if strAt str (nd - 2) then 1 else 2 ^ (nd - 2 - i_dim))) % 2

/-- Multiplication of one row of points in place, Spatial.hpp:191-198, 267-274. -/
def rowInPlace (n : Nat) (m : Nat → Nat → ℝ) (qpoint_stride i_outer i_inner base : Nat) (var_face : Mem) : Mem :=
  let row := fun i_qpoint => var_face (base + ((i_outer * n + i_qpoint) * qpoint_stride + i_inner))
  (List.range n).foldl (fun mem i_qpoint a => if a = base + ((i_outer * n + i_qpoint) * qpoint_stride + i_inner)
    then ((List.range n).map fun j => m i_qpoint j * row j).sum else mem a) var_face

/-- The loops over `i_outer` and `i_inner`, Spatial.hpp:187-200, 263-276. -/
def dimInPlace (n : Nat) (m : Nat → Nat → ℝ) (nfq qpoint_stride base : Nat) (var_face : Mem) : Mem :=
  (List.range (nfq / (n * qpoint_stride))).foldl (fun mem i_outer =>
    (List.range qpoint_stride).foldl (fun mem i_inner => rowInPlace n m qpoint_stride i_outer i_inner base mem) mem) var_face

/-- The loop over `i_dim` for variable data starting at `base`. `mats half` is the matrix for each half, `fac` the factor for stretched
dimensions: `1 + scl` in Prolong_refined (Spatial.hpp:178-202), `1/(1 + scl)` in Restrict_refined (251-278). -/
def dimsInPlace (nd n : Nat) (mats : Nat → Nat → Nat → ℝ) (fac : ℝ) (str : Bool × Bool) (i_face base : Nat) (var_face : Mem) : Mem :=
  (List.range (nd - 1)).foldl (fun mem i_dim =>
    if strAt str i_dim then fun a => if base ≤ a ∧ a < base + n ^ (nd - 1) then mem a * fac else mem a
    else dimInPlace n (mats (iHalf nd str i_dim i_face)) (n ^ (nd - 1)) (n ^ (nd - 2 - i_dim)) base mem) var_face

/-- The factor for stretched dimensions is `1 + scale`. -/
def stretchFac (scale : Bool) : ℝ := if scale then 2 else 1

/-- One fine face in `Prolong_refined::operator()`, Spatial.hpp:169-203: the new fine face from the coarse face. -/
noncomputable def prolongFine (bs : BasisData) (nd nvar : Nat) (scale : Bool) (str : Bool × Bool) (i_face : Nat) (coarse fine : Mem) : Mem :=
  let nfq := bs.n ^ (nd - 1)
  (List.range nvar).foldl (fun fine i_var =>
    let fine : Mem := fun a => if i_var * nfq ≤ a ∧ a < i_var * nfq + nfq then coarse a else fine a
    dimsInPlace nd bs.n bs.prolong (stretchFac scale) str i_face (i_var * nfq) fine) fine

/-- One fine face in `Restrict_refined::operator()`, Spatial.hpp:247-282: the fine face (overwritten) and the coarse face. -/
noncomputable def restrictFine (bs : BasisData) (nd nvar : Nat) (scale : Bool) (str : Bool × Bool) (i_face : Nat) (fc : Mem × Mem) : Mem × Mem :=
  let nfq := bs.n ^ (nd - 1)
  (List.range nvar).foldl (fun (fc : Mem × Mem) i_var =>
    let fine := dimsInPlace nd bs.n bs.restrict (1 / stretchFac scale) str i_face (i_var * nfq) fc.1
    (fine, fun a => if i_var * nfq ≤ a ∧ a < i_var * nfq + nfq then fc.2 a + fine a else fc.2 a)) fc

/-! ## Neighbor -/

/-- `1 - 2*dir.flip_normal(i_side)` for deformed connections, 1 for Cartesian ones, Spatial.hpp:625, 636. -/
def sideSign (deformed : Bool) (d : Dir) (side : Bool) : ℝ := if deformed && d.flipNormal side then -1 else 1

/-- `comp[0].normal`, Spatial.hpp:657-661. -/
def conNormal (deformed : Bool) (d : Dir) (nfq : Nat) (normal : Mem) (q i_dim : Nat) : ℝ :=
  if deformed then sideSign deformed d false * normal (i_dim * nfq + q) else if i_dim = d.i0.val then 1 else 0

/-- The numerical flux, Spatial.hpp:671-674. -/
noncomputable def numFlux (p : Pde) (nd : Nat) (n : Nat → ℝ) (u0 u1 : Nat → ℝ) (v : Nat) : ℝ :=
  1 / 2 * (p.faceFlux u0 n v + p.faceFlux u1 n v
    + max (p.faceSpeed u0) (p.faceSpeed u1) * √((List.range nd).map fun j => n j * n j).sum * (p.faceUpdate u0 v - p.faceUpdate u1 v))

/-- The data of a connection: `state(side, is_ldg)`. -/
abbrev Sides := Bool → Bool → Mem

/-- `Neighbor::operator()` for one connection, Spatial.hpp:618-702. -/
noncomputable def neighbor (p : Pde) (nd n : Nat) (deformed : Bool) (d : Dir) (normal : Mem) (st : Sides) : Sides :=
  let nfq := n ^ (nd - 1)
  let face0 := st false false
  let face1 := if deformed then matchFaces nd n p.nExtrap d (st true false) else st true false
  let avg : Mem := fun a => if a < p.nExtrap * nfq then 1 / 2 * (face0 a + face1 a) else 0
  let flux : Mem := fun a =>
    let q := a % nfq
    numFlux p nd (conNormal deformed d nfq normal q) (fun v => face0 (v * nfq + q)) (fun v => face1 (v * nfq + q)) (a / nfq)
  let new (side : Bool) (old : Mem) : Mem := fun a => if a < p.nUpdate * nfq then sideSign deformed d side * flux a else old a
  let face0 := if p.hasConv then new false face0 else face0
  let face1 := if p.hasConv then new true face1 else face1
  let face1 := if deformed then restore nd n p.nExtrap d face1 else face1
  let face3 := if deformed then restore nd n p.nExtrap d avg else avg
  fun side is_ldg a =>
    if is_ldg then
      if p.hasDiff && decide (a < p.nExtrap * nfq) then (if side then face3 a else avg a) else st side true a
    else if p.hasConv && decide (a < p.nUpdate * nfq) then (if side then face1 a else face0 a) else st side false a

/-- `Neighbor_reconcile::operator()` for one connection, Spatial.hpp:721-757. -/
noncomputable def neighborReconcile (p : Pde) (nd n : Nat) (deformed : Bool) (d : Dir) (st : Sides) : Sides :=
  let nfq := n ^ (nd - 1)
  let face0 := st false true
  let face1 := if deformed then matchFaces nd n p.nExtrap d (st true true) else st true true
  let avg : Mem := fun a => 0 + 1 / 2 * sideSign deformed d false * face0 a + 1 / 2 * sideSign deformed d true * face1 a
  let new (side : Bool) (old : Mem) : Mem := fun a => if a < p.nUpdate * nfq then sideSign deformed d side * avg a - old a else old a
  let face0 := new false face0
  let face1 := new true face1
  let face1 := if deformed then restore nd n p.nExtrap d face1 else face1
  fun side is_ldg a =>
    if is_ldg && decide (a < p.nUpdate * nfq) then (if side then face1 a else face0 a) else st side is_ldg a

/-! ## Local -/

/-- The geometry of a deformed element: `reference_level_normals()`, `jacobian_determinant()`, `kernel_face_normal(i_face)`. -/
structure Geom where
  nrml : Arr
  det : Nat → ℝ
  faceNrml : Nat → Option Mem

/-- The parts of a `Kernel_element` that kernels do not modify. `geom` is `none` for Cartesian elements. -/
structure ElemRec where
  size : ℝ
  tss : Nat → ℝ
  geom : Option Geom

/-- `elem_det[i_qpoint]`; Cartesian elements are not divided or multiplied by it. -/
def ElemRec.det (e : ElemRec) (q : Nat) : ℝ := match e.geom with | none => 1 | some g => g.det q

/-- Options of the kernel `Local`: `_update`, `_stage`, `_compute_residual`, `_use_filter`. -/
structure Opts where
  update : ℝ
  stage : Bool
  residual : Bool
  useFilter : Bool

/-- First dimension of `time_rate`'s blocks, Spatial.hpp:352. -/
def Pde.blockSize (p : Pde) : Nat := max p.nUpdate (p.nExtrap - p.nExtrap / 2)

/-- `derivative(row, bound)`, Spatial.hpp:392, 397, 455. -/
noncomputable def deriv2 (bs : BasisData) (row bound : Nat → Nat → ℝ) (i v : Nat) : ℝ :=
  Basis.deriv bs.n bs.weight bs.diff bs.bound (fun j => row j v) (fun s => bound s v) i

/-- `face_nrml[i_face]` with the dummy normals, Spatial.hpp:331-339, 364-367. -/
def faceNormals (e : ElemRec) (nfq i_face : Nat) : Mem :=
  match e.geom with
  | none => fun _ => 0
  | some g => (g.faceNrml i_face).getD fun a => if a / nfq = i_face / 2 then 1 else 0

/-- The gradient of the extrapolated variables, times the determinant, Spatial.hpp:371-400: `visc_storage[i_dim]`. -/
noncomputable def gradient (p : Pde) (bs : BasisData) (nd : Nat) (e : ElemRec) (state : Arr) (visc : Nat → Mem) : Nat → Arr :=
  let vars : Arr := fun k => p.fetchExtrap (fun v => state (v, k.2)) k.1
  overRows nd bs.n (fun (gr : Nat → Arr) i_dim r =>
    let row_r := readRow vars 0 r
    let face_state := readBound visc r
    match e.geom with
    | some g =>
      let row_n := readRow g.nrml (i_dim * nd) r
      let face_n := readBound (faceNormals e (bs.n ^ (nd - 1))) r
      (List.range nd).foldl (fun gr j_dim => (List.range p.nExtrap).foldl (fun (gr : Nat → Arr) i_var =>
        let w := fun i (_ : Nat) => deriv2 bs (fun i _ => row_n i j_dim * row_r i i_var) (fun s _ => face_n s j_dim * face_state s i_var) i 0 / e.size
        fun d => if d = j_dim then writeRow 1 w (gr d) i_var r 1 else gr d) gr) gr
    | none => fun d => if d = i_dim then writeRow p.nExtrap (fun i v => deriv2 bs row_r face_state i v / e.size) (gr d) 0 r 0 else gr d)
    fun _ _ => 0

/-- `comp.normal`, Spatial.hpp:409-413. -/
def elemNormal (nd : Nat) (e : ElemRec) (q j_dim i_dim : Nat) : ℝ :=
  match e.geom with
  | none => if j_dim = i_dim then 1 else 0
  | some g => g.nrml (i_dim * nd + j_dim, q)

/-- `flux[i_dim][i_var][i_qpoint]`, Spatial.hpp:405-419. -/
def convFlux (p : Pde) (nd : Nat) (e : ElemRec) (state : Arr) (i_dim : Nat) : Arr :=
  fun k => p.fluxConv (fun v => state (v, k.2)) (elemNormal nd e k.2) k.1 i_dim

/-- The viscous flux stored in `visc_storage[i_dim]`, Spatial.hpp:420-435. -/
noncomputable def diffFlux (p : Pde) (bs : BasisData) (nd : Nat) (e : ElemRec) (state : Arr) (visc : Nat → Mem) (i_dim : Nat) : Arr :=
  let gr := gradient p bs nd e state visc
  fun k => p.fluxDiff (fun v => state (v, k.2)) (elemNormal nd e k.2)
    (fun i_var i_dim => match e.geom with | none => gr i_dim (i_var, k.2) | some g => gr i_dim (i_var, k.2) / g.det k.2) k.1 i_dim

/-- `time_rate` before the residual is added: zeros (Spatial.hpp:352), the extrapolated variables written over it and the first
`2*n_update` variables cleared again (374-377, 401), and the source (436-441). -/
noncomputable def initRate (p : Pde) (e : ElemRec) (stage : Bool) (state : Arr) : Arr :=
  fun k =>
    if p.hasSource ∧ stage = false ∧ p.blockSize ≤ k.1 ∧ k.1 < p.blockSize + p.nUpdate then
      (match e.geom with | none => e.size | some g => e.size * g.det k.2) * p.source (fun v => state (v, k.2)) (k.1 - p.blockSize)
    else if p.hasDiff ∧ 2 * p.nUpdate ≤ k.1 ∧ k.1 < p.nExtrap then p.fetchExtrap (fun v => state (v, k.2)) k.1
    else 0

/-- One row of the residual, Spatial.hpp:447-468: `time_rate` and `visc_faces`. -/
noncomputable def residualRow (p : Pde) (bs : BasisData) (flux visc_storage : Nat → Arr) (faces : Nat → Mem)
    (acc : Arr × (Nat → Mem)) (i_dim : Nat) (r : RowIndex) : Arr × (Nat → Mem) :=
  let rate := if p.hasConv then
      writeRow p.nUpdate (fun i v => -deriv2 bs (readRow (flux i_dim) 0 r) (readBound faces r) i v) acc.1 0 r 1
    else acc.1
  if p.hasDiff then
    let row_f := readRow (visc_storage i_dim) 0 r
    (writeRow p.nUpdate (fun i v => -Basis.derivInterior bs.n bs.diff (fun j => row_f j v) i) rate p.blockSize r 1,
     writeBound p.nUpdate (matRow bs.n bs.bound row_f) acc.2 r)
  else (rate, acc.2)

/-- Mode filtering, Spatial.hpp:473-481, 568-576, of the first `nvar` variables. -/
def applyFilter (bs : BasisData) (nd nvar : Nat) (rate : Arr) : Arr :=
  overRows nd bs.n (fun rate i_dim r => writeRow nvar (matRow bs.n bs.filter (readRow rate 0 r)) rate 0 r 0) rate

/-- What `Local` does to one element: new `state`, `residual_cache`, faces and LDG faces. -/
structure LocalOut where
  state : Arr
  cache : Arr
  faces : Nat → Mem
  visc : Nat → Mem

/-- `time_rate` after filtering, and the LDG faces, Spatial.hpp:352-481. -/
noncomputable def localRate (p : Pde) (bs : BasisData) (nd : Nat) (o : Opts) (e : ElemRec) (state : Arr) (faces visc : Nat → Mem) : Arr × (Nat → Mem) :=
  let vs := diffFlux p bs nd e state visc
  let rv := overRows nd bs.n (residualRow p bs (convFlux p nd e state) vs faces) (initRate p e o.stage state, visc)
  (if o.useFilter then applyFilter bs nd (2 * p.nUpdate) rv.1 else rv.1, rv.2)

/-- `mult`, Spatial.hpp:488-489, 582-583. -/
noncomputable def updateMult (update : ℝ) (e : ElemRec) (q : Nat) : ℝ :=
  match e.geom with
  | none => update * e.tss q / e.size
  | some g => update * e.tss q / e.size / g.det q

/-- `Local::operator()` for one element, Spatial.hpp:344-507. The assertions of the constructor are in `Local`'s callers. -/
noncomputable def localKernel (p : Pde) (bs : BasisData) (nd : Nat) (o : Opts) (e : ElemRec) (state cache : Arr) (faces visc : Nat → Mem) : LocalOut :=
  let rv := localRate p bs nd o e state faces visc
  let u0 : Arr := fun k =>
    (if o.stage then rv.1 k - cache k else if p.hasDiff || p.hasSource then rv.1 k + rv.1 (p.blockSize + k.1, k.2) else rv.1 k) * updateMult o.update e k.2
  let cache' : Arr := fun k =>
    if k.1 < p.nUpdate then
      if o.residual then u0 k else if !o.stage && p.hasConv then rv.1 k else cache k
    else cache k
  let state' : Arr := fun k => p.writeUpdate (fun v => if o.residual then 0 else u0 (v, k.2)) (!p.hasDiff && !o.stage) (fun v => state (v, k.2)) k.1
  ⟨state', cache', if p.hasDiff then faces else writeFace p bs nd state' faces, rv.2⟩

/-- `Reconcile_ldg_flux::operator()` for one element, Spatial.hpp:548-592; here `residual` and `state` are the two possible
destinations. -/
noncomputable def reconcileKernel (p : Pde) (bs : BasisData) (nd : Nat) (o : Opts) (e : ElemRec) (state cache : Arr) (faces visc : Nat → Mem) : LocalOut :=
  let rate := overRows nd bs.n (fun rate i_dim r =>
    writeRow p.nUpdate (fun i v => -Basis.boundaryTerm bs.weight bs.bound (fun s => readBound visc r s v) i) rate 0 r 1) fun _ => 0
  let rate := if o.useFilter then applyFilter bs nd p.nUpdate rate else rate
  let upd (dst : Arr) : Arr := fun k => p.writeUpdate (fun v => rate (v, k.2) * updateMult o.update e k.2) true (fun v => dst (v, k.2)) k.1
  let state' := if o.residual then state else upd state
  ⟨state', if o.residual then upd cache else cache, writeFace p bs nd state' faces, visc⟩

/-! ## The mesh as the kernels see it, and the order in which kernels run -/

/-- Where face data is stored: the face of an element, a fine mortar face, or the ghost side of a boundary connection. An element's
face pointer is set to the storage of the connection it takes part in (connection.hpp:112-114, 176, 224, 370), so the storage of that side
of the connection is called by the name of the element's face. -/
inductive Buf where
  | elem (e f : Nat)
  | mortar (ref i_fine : Nat)
  | ghost (con : Nat)
  deriving DecidableEq

/-- A `Kernel_connection`. -/
structure ConRec where
  deformed : Bool
  dir : Dir
  side : Bool → Buf
  normal : Mem

/-- A `Refined_face`. -/
structure RefRec where
  coarse : Buf
  fine : Nat → Buf
  str : Bool × Bool

/-- `Kernel_mesh`: Cartesian connections precede deformed ones in `cons`, and likewise for elements (each kernel is run first on the
Cartesian sequence and then on the deformed one). -/
structure Mesh where
  nd : Nat
  elems : List Nat
  elem : Nat → ElemRec
  cons : List ConRec
  refs : List RefRec

/-- All data that kernels modify. -/
structure World where
  state : Nat → Arr
  cache : Nat → Arr
  buf : Buf → Bool → Mem

/-- Run a kernel on one connection. -/
def onCon (k : ConRec → Sides → Sides) (w : World) (c : ConRec) : World :=
  let st : Sides := fun side => w.buf (c.side side)
  let st' := k c st
  { w with buf := fun b => if b = c.side true then st' true else if b = c.side false then st' false else w.buf b }

/-- `Neighbor` on all connections. -/
noncomputable def runNeighbor (p : Pde) (bs : BasisData) (m : Mesh) (w : World) : World :=
  m.cons.foldl (onCon fun c st => neighbor p m.nd bs.n c.deformed c.dir c.normal st) w

/-- `Neighbor_reconcile` on all connections. -/
noncomputable def runReconcileCons (p : Pde) (bs : BasisData) (m : Mesh) (w : World) : World :=
  m.cons.foldl (onCon fun c st => neighborReconcile p m.nd bs.n c.deformed c.dir st) w

/-- Write part `ldg` of a buffer. The offset `off*(n_dim + 2)*nfq` of the refined-face kernels is the offset of the LDG storage
(`_state_sz = n_var*n_face_qpoint` with `n_var = n_dim + 2`). -/
def setBuf (buf : Buf → Bool → Mem) (b : Buf) (ldg : Bool) (x : Mem) : Buf → Bool → Mem :=
  fun b' l => if b' = b ∧ l = ldg then x else buf b' l

/-- `Prolong_refined::operator()` for one refined face, Spatial.hpp:161-204. -/
noncomputable def prolongRef (p : Pde) (bs : BasisData) (nd : Nat) (scale off : Bool) (buf : Buf → Bool → Mem) (r : RefRec) : Buf → Bool → Mem :=
  (List.range (nFace nd r.str)).foldl (fun buf i_face =>
    setBuf buf (r.fine i_face) off (prolongFine bs nd p.nExtrap scale r.str i_face (buf r.coarse off) (buf (r.fine i_face) off))) buf

/-- `Restrict_refined::operator()` for one refined face, Spatial.hpp:238-283. -/
noncomputable def restrictRef (p : Pde) (bs : BasisData) (nd : Nat) (scale off : Bool) (buf : Buf → Bool → Mem) (r : RefRec) : Buf → Bool → Mem :=
  let buf := setBuf buf r.coarse off fun a => if a < p.nExtrap * bs.n ^ (nd - 1) then 0 else buf r.coarse off a
  (List.range (nFace nd r.str)).foldl (fun buf i_face =>
    let fc := restrictFine bs nd p.nExtrap scale r.str i_face (buf (r.fine i_face) off, buf r.coarse off)
    setBuf (setBuf buf (r.fine i_face) off fc.1) r.coarse off fc.2) buf

/-- `Prolong_refined` on all refined faces. -/
noncomputable def runProlong (p : Pde) (bs : BasisData) (m : Mesh) (scale off : Bool) (w : World) : World :=
  { w with buf := m.refs.foldl (prolongRef p bs m.nd scale off) w.buf }
/-- `Restrict_refined` on all refined faces. -/
noncomputable def runRestrict (p : Pde) (bs : BasisData) (m : Mesh) (scale off : Bool) (w : World) : World :=
  { w with buf := m.refs.foldl (restrictRef p bs m.nd scale off) w.buf }

/-- The result of an element kernel put back into the world. -/
def onElem (nd : Nat) (k : Nat → Arr → Arr → (Nat → Mem) → (Nat → Mem) → LocalOut) (w : World) (e : Nat) : World :=
  let out := k e (w.state e) (w.cache e) (fun f => w.buf (.elem e f) false) fun f => w.buf (.elem e f) true
  { state := fun e' => if e' = e then out.state else w.state e'
    cache := fun e' => if e' = e then out.cache else w.cache e'
    buf := fun b => match b with
      | .elem e' f => if e' = e ∧ f < 2 * nd then (fun l => if l then out.visc f else out.faces f) else w.buf b
      | _ => w.buf b }

/-- `Local` on all elements. -/
noncomputable def runLocal (p : Pde) (bs : BasisData) (m : Mesh) (o : Opts) (w : World) : World :=
  m.elems.foldl (onElem m.nd fun e => localKernel p bs m.nd o (m.elem e)) w
/-- `Reconcile_ldg_flux` on all elements. -/
noncomputable def runReconcileElems (p : Pde) (bs : BasisData) (m : Mesh) (o : Opts) (w : World) : World :=
  m.elems.foldl (onElem m.nd fun e => reconcileKernel p bs m.nd o (m.elem e)) w

/-- `COMPUTE_CONVECTION`, kernels_convective.cpp:8-16. `stepRatio` is `basis.step_ratio()`; `none` = an assertion of a constructor
fails (Spatial.hpp:322-323). -/
noncomputable def computeConvection (p : Pde) (bs : BasisData) (m : Mesh) (stepRatio dt : ℝ) (stage residual useFilter : Bool) (w : World) : Option World :=
  if (p.hasDiff && stage) || (stage && residual) then none
  else
    let o : Opts := ⟨if stage then dt * stepRatio else dt, stage, residual, useFilter⟩
    let w := runNeighbor p bs m w
    let w := runRestrict p bs m true false w
    let w := runLocal p bs m o w
    some (runProlong p bs m false false w)

/-- `COMPUTE_DIFFUSION`, kernels_diffusive.cpp:8-26; `fluxBc` is the argument `flux_bc`. -/
noncomputable def computeDiffusion (p : Pde) (bs : BasisData) (m : Mesh) (fluxBc : World → World) (stepRatio dt : ℝ) (stage residual useFilter : Bool) (w : World) : Option World :=
  if (p.hasDiff && stage) || (stage && residual) || (!p.hasConv && stage) then none
  else
    let o : Opts := ⟨if stage then dt * stepRatio else dt, stage, residual, useFilter⟩
    let w := runNeighbor p bs m w
    let w := runRestrict p bs m true false w
    let w := runRestrict p bs m false true w
    let w := runLocal p bs m o w
    let w := if !stage then
        let w := runProlong p bs m true true w
        let w := fluxBc w
        let w := runReconcileCons p bs m w
        let w := runRestrict p bs m true true w
        runReconcileElems p bs m { o with update := dt } w
      else w
    some (runProlong p bs m false false w)

end Hexed.Spatial

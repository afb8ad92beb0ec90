import Verif.Spatial.Model
import Verif.Connection.Spec
import Mathlib.Tactic.Ring
import Mathlib.Tactic.Linarith
set_option autoImplicit false
set_option linter.unusedVariables false

/-!
# Integrals, well-formed meshes and conserved totals
-/

namespace Hexed.Spatial
open Hexed.Connection (Dir matchFaces restore strAt Legal)

/-- The quadrature weight of point `q` of `n^d` points in row-major order. -/
def qw (w : Nat → ℝ) (n : Nat) : Nat → Nat → ℝ
  | 0, _ => 1
  | d + 1, q => qw w n d (q / n) * w (q % n)

/-- Quadrature over the reference element of variable `v`. -/
noncomputable def quadE (bs : BasisData) (nd : Nat) (m : Arr) (v : Nat) : ℝ := ∑ q ∈ Finset.range (bs.n ^ nd), qw bs.weight bs.n nd q * m (v, q)
/-- Quadrature over a reference face of variable `v`. -/
noncomputable def quadF (bs : BasisData) (nd : Nat) (m : Mem) (v : Nat) : ℝ :=
  ∑ k ∈ Finset.range (bs.n ^ (nd - 1)), qw bs.weight bs.n (nd - 1) k * m (v * bs.n ^ (nd - 1) + k)

/-- The matrices are those returned by the member functions of a basis with these nodes and weights. -/
structure BasisData.IsOf (bs : BasisData) (b : Basis.Nodes ℝ) : Prop where
  n : bs.n = b.n
  weight : bs.weight = b.weight
  mats : Basis.Matrices b bs.diff bs.bound
  filter : ∀ i < b.n, ∀ j < b.n, Basis.filterMat b i j = some (bs.filter i j)
  prolong : ∀ h < 2, ∀ i < b.n, ∀ j < b.n, Basis.prolongMat b h i j = some (bs.prolong h i j)
  restrict : ∀ h < 2, ∀ i < b.n, ∀ j < b.n, Basis.restrictMat b h i j = some (bs.restrict h i j)

/-- A basis fit for the scheme: the quadrature rule is exact to degree `2*row_size - 3` (Gauss–Lobatto) or better (Gauss–Legendre), and
the weights are positive and symmetric. -/
structure GoodBasis (b : Basis.Nodes ℝ) (deg : Nat) : Prop where
  exact : b.Exact deg
  pos : 1 ≤ b.n
  deg : 2 * b.n ≤ deg + 3
  weight_pos : ∀ i < b.n, 0 < b.weight i
  weight_symm : ∀ i < b.n, b.weight (b.n - 1 - i) = b.weight i

/-- +1 for the upper face of an axis, -1 for the lower one: the sign that turns a flux along the axis into an outward flux. -/
def outSign (upper : Bool) : ℝ := if upper then 1 else -1

def Buf.isGhost : Buf → Bool
  | .ghost _ => true
  | _ => false

/-- All face storage named by connections. -/
def Mesh.sides (m : Mesh) : List Buf := m.cons.flatMap fun c => [c.side false, c.side true]
/-- All faces of elements. -/
def Mesh.elemFaces (m : Mesh) : List Buf := m.elems.flatMap fun e => (List.range (2 * m.nd)).map fun f => .elem e f
/-- All fine mortar faces. -/
def Mesh.fineBufs (m : Mesh) : List Buf := m.refs.flatMap fun r => (List.range (nFace m.nd r.str)).map r.fine
def Mesh.coarseBufs (m : Mesh) : List Buf := m.refs.map RefRec.coarse

/-- Which face of which element a face buffer lies on: (element, face number). -/
def Mesh.faceOf (m : Mesh) : Buf → Option (Nat × Nat)
  | .elem e f => some (e, f)
  | .mortar r _ => (m.refs[r]?).bind fun r => match r.coarse with | .elem e f => some (e, f) | _ => none
  | .ghost _ => none

/-- Size of the cell a face buffer belongs to: mortar faces are half as large as the coarse element. -/
noncomputable def Mesh.bufSize (m : Mesh) (b : Buf) : ℝ :=
  match b, m.faceOf b with
  | .elem _ _, some (e, _) => (m.elem e).size
  | .mortar _ _, some (e, _) => (m.elem e).size / 2
  | _, _ => 0

/-- A mesh in which every element face, every mortar face and every ghost face is on exactly one side of exactly one connection, except that
coarse faces are divided into mortar faces instead; connections know on which faces they are and join faces of equal size. -/
structure Mesh.Ok (m : Mesh) (bs : BasisData) : Prop where
  dim : 1 ≤ m.nd ∧ m.nd ≤ 3
  size : ∀ e ∈ m.elems, 0 < (m.elem e).size
  det : ∀ e ∈ m.elems, ∀ q < bs.n ^ m.nd, (m.elem e).det q ≠ 0
  nodup : (m.sides ++ m.coarseBufs).Nodup
  cover : (m.sides ++ m.coarseBufs).Perm (m.elemFaces ++ m.fineBufs ++ m.sides.filter Buf.isGhost)
  fine : ∀ (k : Nat) (r : RefRec), m.refs[k]? = some r → (∃ e f, r.coarse = .elem e f) ∧ ∀ i < nFace m.nd r.str, r.fine i = .mortar k i
  legal : ∀ c ∈ m.cons, Legal m.nd c.dir ∧ (c.deformed = false → c.dir.i1 = c.dir.i0 ∧ c.dir.s0 = true ∧ c.dir.s1 = false)
  ghost : ∀ c ∈ m.cons, (c.side false).isGhost = false
  face : ∀ c ∈ m.cons, ∀ s, (c.side s).isGhost = false → ∃ e, m.faceOf (c.side s) = some (e, 2 * (c.dir.iDim s).val + (c.dir.faceSign s).toNat)
  sizes : ∀ c ∈ m.cons, (c.side true).isGhost = false → m.bufSize (c.side false) = m.bufSize (c.side true)

/-- The integral over the domain of stored variable `var`. -/
noncomputable def Mesh.total (m : Mesh) (bs : BasisData) (state : Nat → Arr) (var : Nat) : ℝ :=
  (m.elems.map fun e => (m.elem e).size ^ m.nd * ∑ q ∈ Finset.range (bs.n ^ m.nd), qw bs.weight bs.n m.nd q * (m.elem e).det q * state e (var, q)).sum

/-- The change of the integral over one element of stored variable `var`, with the time step scale divided out. -/
noncomputable def elemChange (bs : BasisData) (nd : Nat) (e : ElemRec) (st st' : Arr) (var : Nat) : ℝ :=
  e.size ^ nd * ∑ q ∈ Finset.range (bs.n ^ nd), qw bs.weight bs.n nd q * e.det q * ((st' (var, q) - st (var, q)) / e.tss q)

/-- The integral over the domain of the change of stored variable `var` per unit of local time step. If the time step is the same everywhere
(`time_step_scale` is 1) this is the change of `total`. -/
noncomputable def Mesh.change (m : Mesh) (bs : BasisData) (st st' : Nat → Arr) (var : Nat) : ℝ :=
  (m.elems.map fun e => elemChange bs m.nd (m.elem e) (st e) (st' e) var).sum

/-- The numerical flux from side 0 to side 1 of a connection at point `k` (of side 0's face), from the states on both sides. -/
noncomputable def conFlux (p : Pde) (nd n : Nat) (c : ConRec) (st : Sides) (v k : Nat) : ℝ :=
  let face1 := if c.deformed then matchFaces nd n p.nExtrap c.dir (st true false) else st true false
  numFlux p nd (conNormal c.deformed c.dir (n ^ (nd - 1)) c.normal k) (fun u => st false false (u * n ^ (nd - 1) + k)) (fun u => face1 (u * n ^ (nd - 1) + k)) v

/-- The flux of variable `v` out of the domain: over all connections to a ghost face, the numerical flux between the state inside and the
ghost state. -/
noncomputable def Mesh.boundaryFlux (p : Pde) (bs : BasisData) (m : Mesh) (buf : Buf → Bool → Mem) (v : Nat) : ℝ :=
  ((m.cons.filter fun c => (c.side true).isGhost).map fun c => m.bufSize (c.side false) ^ (m.nd - 1) *
    ∑ k ∈ Finset.range (bs.n ^ (m.nd - 1)), qw bs.weight bs.n (m.nd - 1) k * conFlux p m.nd bs.n c (fun s => buf (c.side s)) v k).sum

/-- The diffusive flux from side 0 to side 1 of a connection: the average of the fluxes extrapolated from both sides. -/
noncomputable def conFluxDiff (p : Pde) (nd n : Nat) (c : ConRec) (st : Sides) (v k : Nat) : ℝ :=
  let face1 := if c.deformed then matchFaces nd n p.nExtrap c.dir (st true true) else st true true
  (sideSign c.deformed c.dir false * st false true (v * n ^ (nd - 1) + k) + sideSign c.deformed c.dir true * face1 (v * n ^ (nd - 1) + k)) / 2

/-- The diffusive flux of variable `v` out of the domain. -/
noncomputable def Mesh.boundaryFluxDiff (p : Pde) (bs : BasisData) (m : Mesh) (buf : Buf → Bool → Mem) (v : Nat) : ℝ :=
  ((m.cons.filter fun c => (c.side true).isGhost).map fun c => m.bufSize (c.side false) ^ (m.nd - 1) *
    ∑ k ∈ Finset.range (bs.n ^ (m.nd - 1)), qw bs.weight bs.n (m.nd - 1) k * conFluxDiff p m.nd bs.n c (fun s => buf (c.side s)) v k).sum

/-- The state of computation in which `computeDiffusion` (in the first stage) averages the diffusive fluxes: element fluxes have been
extrapolated to the faces and the flux boundary conditions have been applied. -/
noncomputable def ldgWorld (p : Pde) (bs : BasisData) (m : Mesh) (fluxBc : World → World) (o : Opts) (w : World) : World :=
  fluxBc (runProlong p bs m true true (runLocal p bs m o (runRestrict p bs m false true (runRestrict p bs m true false (runNeighbor p bs m w)))))

/-- A procedure that changes nothing but ghost faces (boundary conditions). -/
def GhostOnly (f : World → World) : Prop :=
  ∀ w, (f w).state = w.state ∧ (f w).cache = w.cache ∧ ∀ b, b.isGhost = false → (f w).buf b = w.buf b

/-- The integral over the domain of the source of variable `v`. -/
noncomputable def Mesh.totalSource (p : Pde) (bs : BasisData) (m : Mesh) (state : Nat → Arr) (v : Nat) : ℝ :=
  if p.hasSource then (m.elems.map fun e => (m.elem e).size ^ m.nd *
    ∑ q ∈ Finset.range (bs.n ^ m.nd), qw bs.weight bs.n m.nd q * (m.elem e).det q * p.source (fun u => state e (u, q)) v).sum else 0

/-- The PDE stores update variable `v` as variable `idx v` of the state and adds updates to it. -/
def Pde.Additive (p : Pde) (idx : Nat → Nat) : Prop :=
  ∀ upd crit st v, v < p.nUpdate → p.writeUpdate upd crit st (idx v) = st (idx v) + upd v

/-- No face is left over for a boundary condition (a periodic or otherwise closed mesh). -/
def Mesh.Closed (m : Mesh) : Prop := ∀ c ∈ m.cons, (c.side true).isGhost = false

end Hexed.Spatial

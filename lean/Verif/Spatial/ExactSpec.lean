import Verif.Spatial.Spec
import Mathlib.Analysis.Calculus.Deriv.Polynomial
set_option autoImplicit false
set_option linter.unusedVariables false

/-!
# Cartesian meshes in space, sampled fields and polynomial data

What is needed to say that the discretization differentiates polynomials exactly: where the points of elements and faces are in space, what
it means that element and face data are samples of a field, and fields that are polynomials of bounded degree in each coordinate.
-/

namespace Hexed.Spatial
open Polynomial

/-- A field: a function of the position (coordinates from `nd` on are not used). -/
abbrev Field := (Nat → ℝ) → ℝ

/-- `f` is a polynomial of degree below `m` in each coordinate. -/
def PolyIn (nd m : Nat) (f : Field) : Prop := ∀ i < nd, ∀ x : Nat → ℝ, ∃ P : ℝ[X], P.degree < m ∧ ∀ t, f (Function.update x i t) = P.eval t

/-- The partial derivative. -/
noncomputable def partialD (i : Nat) (f : Field) : Field := fun x => _root_.deriv (fun t => f (Function.update x i t)) (x i)

/-- Position of quadrature point `q` (row-major numbering of the nodes) of the cube with lower corner `o` and edge `h`. -/
def elemPos (b : Basis.Nodes ℝ) (nd : Nat) (o : Nat → ℝ) (h : ℝ) (q : Nat) : Nat → ℝ :=
  fun i => if i < nd then o i + h * b.node (q / b.n ^ (nd - 1 - i) % b.n) else 0

/-- The number of coordinate `i` among the coordinates other than `d`. -/
def without (d i : Nat) : Nat := if i < d then i else i - 1

/-- Position of point `k` (row-major numbering) of the square with lower corner `o` and edge `h` normal to coordinate `d`, at `x_d = c`. -/
def facePos (b : Basis.Nodes ℝ) (nd d : Nat) (c : ℝ) (o : Nat → ℝ) (h : ℝ) (k : Nat) : Nat → ℝ :=
  fun i => if i = d then c else if i < nd then o i + h * b.node (k / b.n ^ (nd - 2 - without d i) % b.n) else 0

/-- Lower corner of quarter `i_fine` of a face: the bits of `i_fine` say which half is taken in each direction, the first direction in the
highest bit. -/
noncomputable def fineOrigin (nd d : Nat) (o : Nat → ℝ) (h : ℝ) (i_fine : Nat) : Nat → ℝ :=
  fun i => o i + h / 2 * ((i_fine / 2 ^ (nd - 2 - without d i) % 2 : Nat) : ℝ)

/-- Position of the points of a face of element `e` with lower corner `o e` (face `2*d` is the lower, `2*d + 1` the upper face normal to
coordinate `d`) or of a quarter of such a face. -/
noncomputable def Mesh.bufPos (m : Mesh) (b : Basis.Nodes ℝ) (o : Nat → Nat → ℝ) (buf : Buf) (k : Nat) : Nat → ℝ :=
  match m.faceOf buf, buf with
  | some (e, f), .elem _ _ => facePos b m.nd (f / 2) (o e (f / 2) + (m.elem e).size * ((f % 2 : Nat) : ℝ)) (o e) (m.elem e).size k
  | some (e, f), .mortar _ i => facePos b m.nd (f / 2) (o e (f / 2) + (m.elem e).size * ((f % 2 : Nat) : ℝ)) (fineOrigin m.nd (f / 2) (o e) (m.elem e).size i) ((m.elem e).size / 2) k
  | _, _ => fun _ => 0

/-- A mesh of cubes in space: connected faces point in opposite directions along the same axis, the two sides of a connection between elements
are at the same points, no refined face is stretched, and where face normals are stored (at boundaries) they are the unit vector of the
axis. -/
structure Mesh.Cubes (m : Mesh) (b : Basis.Nodes ℝ) (o : Nat → Nat → ℝ) : Prop where
  geom : ∀ e ∈ m.elems, (m.elem e).geom = none
  axis : ∀ c ∈ m.cons, c.dir.i1 = c.dir.i0 ∧ c.dir.s1 = !c.dir.s0
  normal : ∀ c ∈ m.cons, c.deformed = true → ∀ i < m.nd, ∀ k < b.n ^ (m.nd - 1), c.normal (i * b.n ^ (m.nd - 1) + k) = if i = c.dir.i0.val then 1 else 0
  meet : ∀ c ∈ m.cons, (c.side true).isGhost = false → ∀ k < b.n ^ (m.nd - 1), m.bufPos b o (c.side true) k = m.bufPos b o (c.side false) k
  str : ∀ r ∈ m.refs, r.str = (false, false)

/-- The elements hold samples of the fields `u`. -/
def Mesh.Samples (m : Mesh) (b : Basis.Nodes ℝ) (o : Nat → Nat → ℝ) (state : Nat → Arr) (u : Nat → Field) : Prop :=
  ∀ e ∈ m.elems, ∀ q < b.n ^ m.nd, ∀ v, state e (v, q) = u v (elemPos b m.nd (o e) (m.elem e).size q)

/-- Both sides of every connection hold samples of the fields `f` (a ghost face at the same points as the face it belongs to). -/
def Mesh.FaceSamples (m : Mesh) (b : Basis.Nodes ℝ) (o : Nat → Nat → ℝ) (nvar : Nat) (buf : Buf → Mem) (f : Nat → Field) : Prop :=
  ∀ c ∈ m.cons, ∀ s, ∀ v < nvar, ∀ k < b.n ^ (m.nd - 1), buf (c.side s) (v * b.n ^ (m.nd - 1) + k) = f v (m.bufPos b o (c.side false) k)

/-- The same for the faces of elements and quarters of faces only, not for ghost faces. -/
def Mesh.InnerSamples (m : Mesh) (b : Basis.Nodes ℝ) (o : Nat → Nat → ℝ) (nvar : Nat) (buf : Buf → Mem) (f : Nat → Field) : Prop :=
  ∀ c ∈ m.cons, ∀ s, (c.side s).isGhost = false → ∀ v < nvar, ∀ k < b.n ^ (m.nd - 1), buf (c.side s) (v * b.n ^ (m.nd - 1) + k) = f v (m.bufPos b o (c.side false) k)

/-- Both sides of every connection hold samples of the fields `F d` where `d` is the axis normal to the connection. -/
def Mesh.AxisSamples (m : Mesh) (b : Basis.Nodes ℝ) (o : Nat → Nat → ℝ) (nvar : Nat) (buf : Buf → Mem) (F : Nat → Nat → Field) : Prop :=
  ∀ c ∈ m.cons, ∀ s, ∀ v < nvar, ∀ k < b.n ^ (m.nd - 1), buf (c.side s) (v * b.n ^ (m.nd - 1) + k) = F c.dir.i0.val v (m.bufPos b o (c.side false) k)
/-- The same for sides that are not ghost faces. -/
def Mesh.InnerAxisSamples (m : Mesh) (b : Basis.Nodes ℝ) (o : Nat → Nat → ℝ) (nvar : Nat) (buf : Buf → Mem) (F : Nat → Nat → Field) : Prop :=
  ∀ c ∈ m.cons, ∀ s, (c.side s).isGhost = false → ∀ v < nvar, ∀ k < b.n ^ (m.nd - 1), buf (c.side s) (v * b.n ^ (m.nd - 1) + k) = F c.dir.i0.val v (m.bufPos b o (c.side false) k)

/-- The extrapolated variables, as fields. -/
def Pde.extrapField (p : Pde) (u : Nat → Field) (v : Nat) : Field := fun x => p.fetchExtrap (fun w => u w x) v
/-- The convective flux in direction `d`, as a field. -/
def Pde.fluxField (p : Pde) (u : Nat → Field) (d v : Nat) : Field := fun x => p.fluxConv (fun w => u w x) (fun j i => if j = i then 1 else 0) v d
/-- The diffusive flux in direction `d`, computed from the exact derivatives, as a field. -/
noncomputable def Pde.diffField (p : Pde) (u : Nat → Field) (d v : Nat) : Field :=
  fun x => p.fluxDiff (fun w => u w x) (fun j i => if j = i then 1 else 0) (fun v i => partialD i (p.extrapField u v) x) v d

/-- The functions evaluated on faces use only the extrapolated variables. -/
def Pde.FaceLocal (p : Pde) : Prop :=
  ∀ u u' : Nat → ℝ, (∀ v < p.nExtrap, u v = u' v) → p.faceFlux u = p.faceFlux u' ∧ p.faceSpeed u = p.faceSpeed u' ∧ p.faceUpdate u = p.faceUpdate u'

/-- The flux evaluated on faces is the flux evaluated inside, for states of the fields `u`, and linear in the normal. -/
def Pde.FaceConsistent (p : Pde) (nd : Nat) (u : Nat → Field) : Prop :=
  ∀ x, ∀ d < nd, ∀ v < p.nUpdate, ∀ (a : ℝ) (normal : Nat → ℝ), (∀ i < nd, normal i = if i = d then a else 0) →
    p.faceFlux (p.fetchExtrap fun w => u w x) normal v = a * p.fluxField u d v x

/-- The diffusive flux uses only the gradient of the extrapolated variables. -/
def Pde.DiffLocal (p : Pde) (nd : Nat) : Prop :=
  ∀ (data : Nat → ℝ) (normal g g' : Nat → Nat → ℝ), (∀ v < p.nExtrap, ∀ i < nd, g v i = g' v i) → ∀ v < p.nUpdate, ∀ d < nd, p.fluxDiff data normal g v d = p.fluxDiff data normal g' v d

/-- Minus the divergence of the convective flux. -/
noncomputable def Pde.convRate (p : Pde) (nd : Nat) (u : Nat → Field) (v : Nat) : Field :=
  fun x => -(∑ d ∈ Finset.range nd, partialD d (p.fluxField u d v) x)
/-- Minus the divergence of the diffusive flux. -/
noncomputable def Pde.diffRate (p : Pde) (nd : Nat) (u : Nat → Field) (v : Nat) : Field :=
  fun x => -(∑ d ∈ Finset.range nd, partialD d (p.diffField u d v) x)
/-- The right-hand side of the differential equation: whichever of convection, diffusion and source it has. -/
noncomputable def Pde.rhs (p : Pde) (nd : Nat) (u : Nat → Field) (v : Nat) : Field :=
  fun x => (if p.hasConv then p.convRate nd u v x else 0) + (if p.hasDiff then p.diffRate nd u v x else 0) + if p.hasSource then p.source (fun w => u w x) v else 0

end Hexed.Spatial

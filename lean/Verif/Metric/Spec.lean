import Verif.Metric.Model
import Verif.Spatial.ExactSpec
import Verif.Connection.Spec
import Mathlib.Algebra.MvPolynomial.Degrees
set_option autoImplicit false
set_option linter.unusedVariables false

/-!
# Meshes in space

Nothing here refers to how `calc_jacobian` works, only to `ElemShape.position`: where the quadrature points of an element are.
-/

namespace Hexed.Metric
open Hexed.Spatial
open Hexed.Connection (Dir IsFrame partCenter)
open MvPolynomial
noncomputable section

/-- Coordinate `a`, in a coarse face, of the point with coordinate `t` in part `i` of that face: parts are half as long as the face along the axes along which it is divided. -/
def partCoord (nd d : Nat) (str : Bool × Bool) (i a : Nat) (t : ℝ) : ℝ :=
  if h : d < 3 ∧ a < 3 then
    let c := partCenter nd ⟨d, h.1⟩ str i ⟨a, h.2⟩
    if c = 0 then t else 1 / 2 + c / 4 + (t - 1 / 2) / 2
  else t

/-- Where the point with coordinates `ξ` of a face is in the reference cube of the element which the face belongs to. -/
def refPoint (s : Shape) (B : Buf) (ξ : Nat → ℝ) : Nat → ℝ :=
  match B, s.kernel.faceOf B with
  | .elem _ _, some (e, f) => Function.update ξ (f / 2) ((f % 2 : Nat) : ℝ)
  | .mortar r i, some (e, f) => fun a => if a = f / 2 then ((f % 2 : Nat) : ℝ) else partCoord s.nd (f / 2) ((s.refs[r]?).elim (false, false) RefRec.str) i a (ξ a)
  | _, _ => ξ

/-- `X e i`: component `i` of the position of a point of element `e` as a function of its reference coordinates. A face as a parametrized surface: component `i` of the position of the
point with coordinates `ξ`. -/
def surface (s : Shape) (X : Nat → Nat → MvPolynomial ℕ ℝ) (B : Buf) (i : Nat) (ξ : Nat → ℝ) : ℝ :=
  match s.kernel.faceOf B with
  | some (e, _) => eval (refPoint s B ξ) (X e i)
  | none => 0

/-- Component `j` of the normal of a parametrized face, in units of the size of the cell: determinant of the tangent vectors and unit vector `j`. -/
def surfaceNormal (s : Shape) (X : Nat → Nat → MvPolynomial ℕ ℝ) (B : Buf) (j : Nat) (ξ : Nat → ℝ) : ℝ :=
  match s.kernel.faceOf B with
  | some (_, f) => Matrix.det (Matrix.of fun r c : Fin s.nd => if c.val = f / 2 then (if r.val = j then 1 else 0) else partialD c.val (surface s X B r.val) ξ / s.kernel.bufSize B)
  | none => 0

/-- Component `j` of the normal of the surface of constant coordinate `d` through a point in the interior of an element, in units of the size of the element. -/
def levelNormal (s : Shape) (X : Nat → Nat → MvPolynomial ℕ ℝ) (e d j : Nat) (ξ : Nat → ℝ) : ℝ :=
  Matrix.det (Matrix.of fun r c : Fin s.nd => if c.val = d then (if r.val = j then 1 else 0) else partialD c.val (fun x => eval x (X e r.val)) ξ / (s.elem e).size)

/-- Determinant of the derivative of the position. -/
def volume (s : Shape) (X : Nat → Nat → MvPolynomial ℕ ℝ) (e : Nat) (ξ : Nat → ℝ) : ℝ :=
  Matrix.det (Matrix.of fun r c : Fin s.nd => partialD c.val (fun x => eval x (X e r.val)) ξ)

/-- A mesh in space. The position of points in elements is a polynomial of degree less than `m` in each coordinate which the quadrature points follow; it is locally invertible on the
whole element, and Cartesian elements are cubes. Connected faces meet: points of the two faces that correspond according to the direction of the connection (C09) are at the
same place. -/
structure InSpace (s : Shape) (b : Basis.Nodes ℝ) (m : Nat) (X : Nat → Nat → MvPolynomial ℕ ℝ) : Prop where
  poly : ∀ e ∈ s.elems, ∀ i < s.nd, ∀ j < s.nd, degreeOf j (X e i) < m
  points : ∀ e ∈ s.elems, ∀ q < b.n ^ s.nd, ∀ i < s.nd, (s.elem e).position b s.nd q i = eval (elemPos b s.nd (fun _ => 0) 1 q) (X e i)
  cart : ∀ e ∈ s.elems, (s.elem e).deformed = false → ∀ i < s.nd, ∀ ξ, eval ξ (X e i) = (s.elem e).corner i + (s.elem e).size * ξ i
  regular : ∀ e ∈ s.elems, ∀ ξ, (∀ i < s.nd, 0 ≤ ξ i ∧ ξ i ≤ 1) → volume s X e ξ ≠ 0
  meet : ∀ c ∈ s.cons, (c.side true).isGhost = false → ∀ R, IsFrame c.dir R → ∀ ξ η : Nat → ℝ,
    (∀ k : Fin 3, k.val < s.nd → k ≠ c.dir.i1 → 2 * η k.val - 1 = ∑ l : Fin 3, (R k l : ℝ) * (2 * ξ l.val - 1)) → ∀ i < s.nd, surface s X (c.side false) i ξ = surface s X (c.side true) i η

/-- What the mesh class guarantees about the kinds of connections: Cartesian connections (also those which are part of a refined face) have an element that is not deformed on at
least one side; fine connections are of the kind of the refined face, only deformed refined faces can be stretched, the coarse element comes first in deformed ones; a boundary
connection is deformed and joins a face of an element and a ghost face on the opposite side. -/
structure Kinds (s : Shape) : Prop where
  flat : ∀ c ∈ s.cons, c.deformed = false → ∃ sd e f, s.kernel.faceOf (c.side sd) = some (e, f) ∧ (s.elem e).deformed = false
  fine : ∀ c ∈ s.cons, ∀ sd r i, c.side sd = .mortar r i → c.deformed = s.refDef r ∧ (c.deformed = true → sd = false)
  stretch : ∀ r rr, s.refs[r]? = some rr → s.refDef r = false → rr.str = (false, false)
  bound : ∀ c ∈ s.cons, (c.side true).isGhost = true → c.deformed = true ∧ c.dir.i1 = c.dir.i0 ∧ c.dir.s1 = (!c.dir.s0) ∧ ∃ e f, c.side false = .elem e f

/-- A basis whose nodes are in the unit interval and symmetric. -/
structure GoodNodes (b : Basis.Nodes ℝ) (deg : Nat) : Prop extends GoodBasis b deg where
  row : 2 ≤ b.n
  unit : ∀ i < b.n, 0 ≤ b.node i ∧ b.node i ≤ 1
  symm : ∀ i < b.n, b.node (b.n - 1 - i) = 1 - b.node i

end
end Hexed.Metric

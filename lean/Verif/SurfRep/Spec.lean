import Verif.SurfRep.Model
import Verif.Metric.UniformFlow
set_option autoImplicit false
set_option linter.unusedVariables false

/-!
# Specification for the uncertainty of the surface representation (C89)
-/

namespace Hexed.SurfRep
open Hexed.Spatial
open Hexed.SnapMesh (sgn)
open Hexed.Metric (partner)
noncomputable section

/-- The face of element `e` that is on boundary `sn`: its dimension and sign. -/
def wallOf (bounds : List Bound) (sn e : Nat) : Option (Nat × Nat) := (bounds.find? fun c => c.sn == sn && c.elem == e).map fun c => (c.dim, c.sign)

/-- The list of boundary connections is that of the mesh: faces of its elements, one connection with a ghost face for each of them, and no element has two faces on boundary `sn`. -/
structure BoundsOk (m : Mesh) (bounds : List Bound) (sn : Nat) : Prop where
  inside : ∀ c ∈ bounds, c.elem ∈ m.elems ∧ c.dim < m.nd ∧ c.sign < 2 ∧ ∃ con ∈ m.cons, con.side false = c.face ∧ (con.side true).isGhost = true
  all : ∀ con ∈ m.cons, (con.side true).isGhost = true → ∃ c ∈ bounds, con.side false = c.face
  single : ∀ c ∈ bounds, ∀ c' ∈ bounds, c.sn = sn → c'.sn = sn → c.elem = c'.elem → c.dim = c'.dim ∧ c.sign = c'.sign

/-- Number of the quadrature point with coordinates `x`. -/
def cell (nd n : Nat) (x : Nat → Nat) : Nat := (List.range nd).foldl (fun a d => a * n + x d) 0

/-- The vector normal to the wall (face `sign` of dimension `dim`), pointing out of the element, at the edge of face `f` with the wall: the polynomial that interpolates the reference level normals,
extrapolated to the wall and to face `f`. Point `k` of the face is given by its coordinates in the two other dimensions; only the one that is not `dim` matters, and in 2D the edge is a point. -/
def edgeVec (bs : BasisData) (nd : Nat) (g : Geom) (dim sign f j k : Nat) : ℝ :=
  let other := if 3 - dim - f / 2 < dim then k / bs.n else k % bs.n
  ∑ t ∈ Finset.range bs.n, ∑ i ∈ Finset.range bs.n, bs.bound sign t * bs.bound (f % 2) i * (sgn sign * g.nrml (dim * nd + j, cell nd bs.n fun d => if d = dim then t else if d = f / 2 then i else other))

/-- The unit vector in that direction (zero if there is none). -/
def edgeUnit (bs : BasisData) (nd : Nat) (g : Geom) (dim sign f j k : Nat) : ℝ := edgeVec bs nd g dim sign f j k / √(∑ i ∈ Finset.range nd, edgeVec bs nd g dim sign f i k ^ 2)

/-- Face `f` of `e` meets the surface `sn` in an edge, and `e` is deformed, so it has normals `g`. -/
structure Meets (m : Mesh) (bounds : List Bound) (sn e f dim sign : Nat) (g : Geom) : Prop where
  elem : e ∈ m.elems
  face : f < 2 * m.nd
  geom : (m.elem e).geom = some g
  wall : wallOf bounds sn e = some (dim, sign)
  lateral : f / 2 ≠ dim

/-- `D` is the difference of the unit normals across face `f` of `e`: with those of the deformed element at the other side of a conforming deformed connection, matched to the points of `f`, or zero on a
boundary. -/
inductive Difference (bs : BasisData) (m : Mesh) (bounds : List Bound) (sn e f : Nat) (D : Nat → Nat → ℝ) : Prop
  | boundary (c : Bound) (h : c ∈ bounds) (hf : c.face = .elem e f) (h0 : ∀ j k, D j k = 0)
  | first (c : ConRec) (h : c ∈ m.cons) (hd : c.deformed = true) (e' f' dim sign dim' sign' : Nat) (g g' : Geom) (h0 : c.side false = .elem e f) (h1 : c.side true = .elem e' f') (w : Meets m bounds sn e f dim sign g)
      (w' : Meets m bounds sn e' f' dim' sign' g')
      (hD : ∀ j < m.nd, ∀ k < bs.n ^ (m.nd - 1), D j (partner m.nd bs.n c k) = edgeUnit bs m.nd g dim sign f j (partner m.nd bs.n c k) - edgeUnit bs m.nd g' dim' sign' f' j k)
  | second (c : ConRec) (h : c ∈ m.cons) (hd : c.deformed = true) (e' f' dim sign dim' sign' : Nat) (g g' : Geom) (h0 : c.side false = .elem e' f') (h1 : c.side true = .elem e f) (w : Meets m bounds sn e f dim sign g)
      (w' : Meets m bounds sn e' f' dim' sign' g')
      (hD : ∀ j < m.nd, ∀ k < bs.n ^ (m.nd - 1), D j k = edgeUnit bs m.nd g dim sign f j k - edgeUnit bs m.nd g' dim' sign' f' j (partner m.nd bs.n c k))

/-- The root of the integral over a reference face of the squared length of `D`. -/
def rms (bs : BasisData) (nd : Nat) (D : Nat → Nat → ℝ) : ℝ := √(∑ k ∈ Finset.range (bs.n ^ (nd - 1)), qw bs.weight bs.n (nd - 1) k * ∑ j ∈ Finset.range nd, D j k ^ 2)

/-- The faces that meet the wall of dimension `dim`. -/
def lateral (nd dim : Nat) : List Nat := (List.range (2 * nd)).filter fun f => f / 2 ≠ dim

/-- Storage of a face, or a part of a face, that meets the surface. -/
def AtSurface (m : Mesh) (bounds : List Bound) (sn : Nat) (b : Buf) : Prop := ∃ e f dim sign g, m.faceOf b = some (e, f) ∧ Meets m bounds sn e f dim sign g

/-- A flat surface covered by deformed elements: all unit normals are `ν`, and everything connected to a face that meets the surface meets the surface (or is a boundary). -/
structure Flat (bs : BasisData) (m : Mesh) (bounds : List Bound) (sn : Nat) (ν : Nat → ℝ) : Prop where
  normal : ∀ e f dim sign g, Meets m bounds sn e f dim sign g → ∀ j < m.nd, ∀ k < bs.n ^ (m.nd - 1), edgeUnit bs m.nd g dim sign f j k = ν j
  deformed : ∀ c ∈ m.cons, ∀ s, AtSurface m bounds sn (c.side s) → c.deformed = true
  closed : ∀ c ∈ m.cons, ∀ s, AtSurface m bounds sn (c.side s) → (c.side !s).isGhost = true ∨ AtSurface m bounds sn (c.side !s)

end
end Hexed.SurfRep

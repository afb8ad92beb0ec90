import Verif.FaceSnap.Sep
set_option autoImplicit false
set_option linter.unusedVariables false

/-!
# Specification of snapping faces to a surface (C86)
-/

namespace Hexed.FaceSnap
open Hexed.Spatial Hexed.Metric Hexed.Tensor
open Hexed.Basis (ell)
noncomputable section

/-- A component of the point with coordinates `x` on side `σ` in dimension `d` of an element with straight edges: multilinear interpolation of the vertices of this side. Vertex
`pt nd 2 d l σ` has coordinate `σ` in dimension `d` and the digits of `l` in the others. -/
def straight (nd d σ : Nat) (vert : Nat → ℝ) (x : Fin (nd - 1) → ℝ) : ℝ :=
  ∑ l : Fin (nd - 1) → Fin 2, vert (pt nd 2 d (idx l) σ) * ∏ k, if l k = 1 then x k else 1 - x k

/-- That point. -/
def corner (nd d σ : Nat) (e : Elem) (x : Fin (nd - 1) → ℝ) : Nat → ℝ := fun i => if i < nd then straight nd d σ (fun v => e.vert v i) x else 0

/-- The face as the solver represents it: the polynomial through the positions of the quadrature points of the face (`face_position`). -/
def facePoint (b : Basis.Nodes ℝ) (nd : Nat) (e : Elem) (i_face : Nat) (x : Fin (nd - 1) → ℝ) (i : Nat) : ℝ :=
  ∑ c : Fin (nd - 1) → Fin b.n, (∏ k, (ell b (c k)).eval (x k)) * facePosition b nd e i_face (idx c) i

/-- No face but face `i_face` is warped. -/
def OnlyWarped (n nd i_face : Nat) (adj : Mem) : Prop := ∀ f < 2 * nd, f ≠ i_face → ∀ k < n ^ (nd - 1), adj (f * n ^ (nd - 1) + k) = 0

/-- The nodes of the Gauss-Lobatto rules: as many as asked for, all different. -/
def IsLobatto (lob : Nat → Basis.Nodes ℝ) : Prop := ∀ k ≥ 2, (lob k).n = k ∧ (lob k).Distinct

/-- The sample point with number `q`. -/
def sample (l : Basis.Nodes ℝ) {m : Nat} (q : Fin m → Fin l.n) : Fin m → ℝ := fun k => l.node (q k)

/-- The polynomial that takes the values `v` at the sample points. -/
def through (l : Basis.Nodes ℝ) {m : Nat} (v : Nat → ℝ) (x : Fin m → ℝ) : ℝ := ∑ q : Fin m → Fin l.n, (∏ k, (ell l (q k)).eval (x k)) * v (idx q)

/-- What a sample point on side `sign` should be moved by, as a multiple of the distance between the two faces: to the nearest of the intersections, which are given by their distance from
side 0; not at all if none is nearer than the length of the element. -/
def Wanted (sign : Nat) (sects : List ℝ) (t : ℝ) : Prop :=
  (t = 0 ∧ ∀ s ∈ sects, 1 ≤ |s - (sign : ℝ)|) ∨ (|t| < 1 ∧ (∃ s ∈ sects, t = s - sign) ∧ ∀ s ∈ sects, |t| ≤ |s - (sign : ℝ)|)

/-- `s` is the derivative at node `i` of the polynomial that takes the values `v` at the nodes. -/
def IsSlope (b : Basis.Nodes ℝ) (v : Nat → ℝ) (i : Nat) (s : ℝ) : Prop :=
  ∃ p : Polynomial ℝ, p.degree < b.n ∧ (∀ j < b.n, p.eval (b.node j) = v j) ∧ p.derivative.eval (b.node i) = s

/-- The polynomial with the values `a` at the nodes of a face has a derivative greater than 1 at a node: of the edge in two dimensions, in one of the two directions or mixed in three. -/
def Steep (b : Basis.Nodes ℝ) (nd : Nat) (a : Nat → ℝ) : Prop :=
  (nd = 2 ∧ ∃ i < b.n, ∃ s, IsSlope b a i s ∧ 1 < |s|) ∨
  (nd = 3 ∧ ∃ i < b.n, ∃ j < b.n, ∃ s, 1 < |s| ∧ (IsSlope b (fun k => a (k * b.n + j)) i s ∨ IsSlope b (fun k => a (i * b.n + k)) j s ∨
    ∃ w, (∀ k < b.n, IsSlope b (fun l => a (l * b.n + k)) i (w k)) ∧ IsSlope b w j s))

/-- The intersections of lines with surface `S`: every number that is returned is the place of a point of `S` on the line. -/
def Sound (g : Geometry) (S : (Nat → ℝ) → Prop) : Prop := ∀ p0 p1, ∀ t ∈ g.intersections p0 p1, S fun i => (1 - t) * p0 i + t * p1 i

end
end Hexed.FaceSnap

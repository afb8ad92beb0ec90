import Verif.Split.Model
set_option autoImplicit false
set_option linter.unusedVariables false

/-!
# Specification: what it means to split a layer of elements
-/

namespace Hexed.Split
open Hexed.Spatial Hexed.Metric
open Hexed.RowIndex (RowIndex rows)
noncomputable section

/-- The line of the element along dimension `i` through the quadrature points of row `k`: multilinear interpolation of the vertices at the point with coordinate `ξ` in
direction `i`, moved along the edges in direction `i` by the adjustment of the two faces, interpolated linearly. -/
def line (b : Basis.Nodes ℝ) (nd i k : Nat) (adj : Mem) (vert : Nat → ℝ) (ξ : ℝ) : ℝ :=
  let x := facePos b nd i ξ (fun _ => 0) 1 k
  (∑ v ∈ Finset.range (2 ^ nd), vert v * ∏ d ∈ Finset.range nd, if v / 2 ^ (nd - 1 - d) % 2 = 1 then x d else 1 - x d) +
  ((1 - ξ) * adj (2 * i * b.n ^ (nd - 1) + k) + ξ * adj ((2 * i + 1) * b.n ^ (nd - 1) + k)) *
    ∑ v ∈ Finset.range (2 ^ nd), vert v * ∏ d ∈ Finset.range nd, if d = i then (if v / 2 ^ (nd - 1 - d) % 2 = 1 then 1 else -1) else if v / 2 ^ (nd - 1 - d) % 2 = 1 then x d else 1 - x d

/-- The lines of an element of the mesh. -/
def Mesh.line (m : Mesh) (b : Basis.Nodes ℝ) (e i k c : Nat) (ξ : ℝ) : ℝ := Split.line b m.nd i k (m.adj e) (fun v => m.pos (m.vid e v) c) ξ

/-- The faces other than those in direction `i` are not warped. -/
def Unwarped (b : Basis.Nodes ℝ) (nd i : Nat) (adj : Mem) : Prop := ∀ j < nd, j ≠ i → ∀ σ < 2, ∀ k < b.n ^ (nd - 1), adj ((2 * j + σ) * b.n ^ (nd - 1) + k) = 0

/-- The reference coordinate of the point at relative distance `t` from the exposed face. -/
def atDist (sign : Bool) (t : ℝ) : ℝ := if sign then 1 - t else t

/-- Element `e` of mesh `m'` is the part of element `e0` of mesh `m` between the relative distances `near` and `far` from the face on side `sign` in direction `i`. Its lines along `i`
are parts of the lines of `e0`, and its state is that of `e0`: if the values of a variable in `e0` along a line are those of a polynomial that the basis can represent, then the
values in `e` are those of the same polynomial. -/
structure IsPart (b : Basis.Nodes ℝ) (nvar : Nat) (m m' : Mesh) (i : Nat) (sign : Bool) (e0 e : Nat) (near far : ℝ) : Prop where
  size : m'.size e = m.size e0
  geometry : ∀ c < m.nd, ∀ k < b.n ^ (m.nd - 1), ∀ t : ℝ, m'.line b e i k c (atDist sign t) = m.line b e0 i k c (atDist sign (near + (far - near) * t))
  state : ∀ v < nvar, ∀ k < b.n ^ (m.nd - 1), ∀ p : Polynomial ℝ, p.degree < b.n → (∀ x < b.n, m.state e0 (v, pt m.nd b.n i k x) = p.eval (b.node x)) →
    ∀ x < b.n, m'.state e (v, pt m.nd b.n i k x) = p.eval (atDist sign (near + (far - near) * atDist sign (b.node x)))

/-- Exposed faces as they are after the extrusion of a layer: each element has one, they and their elements exist; the vertices opposite to exposed vertices are not exposed and a vertex that is
shared by several faces has the same opposite vertex in all of them. No vertex is marked and the adjustments of elements that do not exist yet are zero. -/
structure Layer (m : Mesh) (faces : List Face) : Prop where
  dim : ∀ f ∈ faces, f.i_dim < m.nd
  elem : ∀ f ∈ faces, f.elem < m.ne
  one : faces.Pairwise fun f g => f.elem ≠ g.elem
  vid : ∀ e < m.ne, ∀ v < 2 ^ m.nd, m.vid e v < m.nv
  apart : ∀ f ∈ faces, ∀ g ∈ faces, ∀ k < 2 ^ (m.nd - 1), ∀ l < 2 ^ (m.nd - 1), m.vid f.elem (pt m.nd 2 f.i_dim k (!f.sign).toNat) ≠ m.vid g.elem (pt m.nd 2 g.i_dim l g.sign.toNat)
  same : ∀ f ∈ faces, ∀ g ∈ faces, ∀ k < 2 ^ (m.nd - 1), ∀ l < 2 ^ (m.nd - 1), m.vid f.elem (pt m.nd 2 f.i_dim k f.sign.toNat) = m.vid g.elem (pt m.nd 2 g.i_dim l g.sign.toNat) →
    m.vid f.elem (pt m.nd 2 f.i_dim k (!f.sign).toNat) = m.vid g.elem (pt m.nd 2 g.i_dim l (!g.sign).toNat)
  unmarked : ∀ v, m.moved v = false
  fresh : ∀ e ≥ m.ne, ∀ a, m.adj e a = 0

/-- Vertex `v` is a vertex of an exposed face. -/
def Exposed (m : Mesh) (faces : List Face) (v : Nat) : Prop := ∃ f ∈ faces, ∃ k < 2 ^ (m.nd - 1), v = m.vid f.elem (pt m.nd 2 f.i_dim k f.sign.toNat)

/-- The Jacobian matrix along line `k` of the element, at coordinate `ξ` in direction `i`. -/
def colJac (m : Mesh) (b : Basis.Nodes ℝ) (bs : BasisData) (e i k r j : Nat) (ξ : ℝ) : ℝ :=
  if j = i then (m.line b e i k r 1 - m.line b e i k r 0) / m.size e
  else (∑ x ∈ Finset.range b.n, bs.diff (nodeOf m.nd b.n j (pt m.nd b.n i k 0)) x * m.line b e i (rowOf m.nd b.n i (pt m.nd b.n j (rowOf m.nd b.n j (pt m.nd b.n i k 0)) x)) r ξ) / m.size e

/-- The integral of variable `v` over element `e`, up to the factor `nominal_size^n_dim` that the elements of a column share. -/
def Mesh.integral (m : Mesh) (b : Basis.Nodes ℝ) (bs : BasisData) (v e : Nat) : ℝ :=
  ∑ q ∈ Finset.range (b.n ^ m.nd), qw b.weight b.n m.nd q * jacDet m.nd ((m.shape e).jac b bs m.nd q) * m.state e (v, q)

/-- The boundaries between the layers: `prev`, the split points, 0. -/
def bounds (prev : ℝ) (points : List ℝ) (s : Nat) : ℝ := (prev :: points).getD s 0

/-- The number of element `s` of column `j`, counted towards the surface: the element that had face `f`, then the new elements. -/
def colElem (m : Mesh) (faces : List Face) (j : Nat) (f : Face) (s : Nat) : Nat := if s = 0 then f.elem else m.ne + (s - 1) * faces.length + j

/-- The points are positive and no two successive ones are equal. -/
def Usable : ℝ → List ℝ → Prop
  | _, [] => True
  | prev, p :: ps => 0 < p ∧ p ≠ prev ∧ Usable p ps

end
end Hexed.Split

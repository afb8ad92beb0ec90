import Verif.Vis.Model
import Verif.Stats.Spec
import Mathlib.Algebra.MvPolynomial.Degrees
import Mathlib.Algebra.MvPolynomial.Eval
set_option autoImplicit false
set_option linter.unusedVariables false

/-! # Specification of visualization data -/

namespace Hexed.Vis
open Hexed.Tensor Hexed.Basis

/-- `p` is the interpolating polynomial of the values `g` at the quadrature points: its degree in each coordinate is less than the row size and it has these values at the nodes. `interp_unique` shows that there is exactly one. -/
structure Interp (b : Nodes ℝ) {nd : Nat} (g : Nat → ℝ) (p : MvPolynomial (Fin nd) ℝ) : Prop where
  deg : ∀ k, p.degreeOf k < b.n
  val : ∀ c : Fin nd → Fin b.n, MvPolynomial.eval (fun k => b.node (c k)) p = g (idx c)

/-- Point `d` of a uniform block of `n` points on a side in the unit cube. -/
noncomputable def uniform {nd : Nat} (n : Nat) (d : Fin nd → Fin n) : Fin nd → ℝ := fun k => (d k : ℝ) / ((n : ℝ) - 1)

/-- The corners of a cell in the order of VTK: counterclockwise in the plane of the first two coordinates, starting at the lowest, and in three dimensions first the lower and then the upper four. -/
def vtkCorner (i_vert k : Nat) : Nat :=
  if k = 0 then if i_vert % 4 = 1 ∨ i_vert % 4 = 2 then 1 else 0
  else if k = 1 then if i_vert % 4 = 2 ∨ i_vert % 4 = 3 then 1 else 0
  else i_vert / 4

/-- What the arrays of a file mean to its reader, for `n_block` blocks with topological dimension `nt` of `n` points on a side: each block consists of its own `n^nt` points with positions `X block point` (`ng` coordinates) and values `V block point` (`nv` variables), and of `(n - 1)^nt` cells, whose corners are the neighboring points of the block; there is nothing else in the arrays. -/
structure Shows (nt ng nv n n_block : Nat) (X V : Nat → (Fin nt → Fin n) → Nat → ℝ) (x : Xdmf) : Prop where
  point : ∀ e < n_block, ∀ d : Fin nt → Fin n, ∀ k < ng, x.geom[(e * n ^ nt + idx d) * ng + k]? = some (X e d k)
  value : ∀ e < n_block, ∀ d : Fin nt → Fin n, ∀ v < nv, (x.attrs v)[e * n ^ nt + idx d]? = some (V e d v)
  cell : ∀ e < n_block, ∀ c : Fin nt → Fin (n - 1), ∀ i_vert < 2 ^ nt, ∀ d : Fin nt → Fin n, (∀ k : Fin nt, (d k : Nat) = c k + vtkCorner i_vert k) →
    x.topo[(e * (n - 1) ^ nt + idx c) * 2 ^ nt + i_vert]? = some (e * n ^ nt + idx d)
  geom_size : x.geom.length = n_block * n ^ nt * ng
  attr_size : ∀ v < nv, (x.attrs v).length = n_block * n ^ nt
  topo_size : x.topo.length = n_block * (n - 1) ^ nt * 2 ^ nt

end Hexed.Vis

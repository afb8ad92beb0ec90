import Mathlib.Data.Real.Sqrt
import Mathlib.Algebra.BigOperators.Group.Finset.Basic
import Mathlib.Data.List.Iterate
set_option autoImplicit false
set_option linter.unusedVariables false

/-!
# Model of the polynomial basis in physical space

`Physical_basis` (src/Physical_basis.cpp, include/Physical_basis.hpp) in exact arithmetic. Positions are the entries of one array, dimension by dimension. A value that is not a number is `none`. The least squares solver
of Eigen is a parameter.
-/

namespace Hexed.PhysBasis

open Finset

/-- `Physical_basis::size`, Physical_basis.cpp:42-50. -/
def size (n_dim row_size : Nat) : Nat :=
  match n_dim with
  | 1 => row_size
  | 2 => row_size * (row_size + 1) / 2
  | 3 => row_size * (row_size + 1) * (row_size + 2) / 6
  | _ => 0

/-- The constructor without the tables, Physical_basis.cpp:10-15: it throws (`none`) for more than three dimensions or the wrong number of positions. -/
def construct (n_dim row_size : Nat) (pos : List ℝ) : Option (List ℝ) :=
  if n_dim > 3 then none else if pos.length ≠ n_dim * row_size ^ n_dim then none else some pos

/-- The largest of the first `n + 1` values (`std::max_element`), Physical_basis.cpp:19. -/
noncomputable def maxOf (f : Nat → ℝ) : Nat → ℝ
  | 0 => f 0
  | n + 1 => max (maxOf f n) (f (n + 1))

/-- The smallest of the first `n + 1` values (`std::min_element`), Physical_basis.cpp:20. -/
noncomputable def minOf (f : Nat → ℝ) : Nat → ℝ
  | 0 => f 0
  | n + 1 => min (minOf f n) (f (n + 1))

/-- Position of a point: `pos[i_dim*n_qpoint + i_qpoint]`. -/
noncomputable def at' (n_dim row_size : Nat) (pos : List ℝ) (i_dim i_qpoint : Nat) : ℝ := pos.getD (i_dim * row_size ^ n_dim + i_qpoint) 0

/-- `bound_box_center` and `bound_box_size`, Physical_basis.cpp:18-23. -/
noncomputable def boxCenter (n_dim row_size : Nat) (pos : List ℝ) (i_dim : Nat) : ℝ := (minOf (at' n_dim row_size pos i_dim) (row_size ^ n_dim - 1) + maxOf (at' n_dim row_size pos i_dim) (row_size ^ n_dim - 1)) / 2
noncomputable def boxSize (n_dim row_size : Nat) (pos : List ℝ) (i_dim : Nat) : ℝ := maxOf (at' n_dim row_size pos i_dim) (row_size ^ n_dim - 1) - minOf (at' n_dim row_size pos i_dim) (row_size ^ n_dim - 1)

/-- The loop over `i_dim` that carries to the previous index, Physical_basis.cpp:31-36, from `i_dim` down to 1. -/
def carry (row_size : Nat) : Nat → List Nat → List Nat
  | 0, inds => inds
  | i_dim + 1, inds => carry row_size i_dim (if row_size ≤ inds.sum then (inds.set (i_dim + 1) 0).set i_dim (inds.getD i_dim 0 + 1) else inds)

/-- From one set of indices to the next, Physical_basis.cpp:30-36. -/
def next (n_dim row_size : Nat) (inds : List Nat) : List Nat := carry row_size (n_dim - 1) (inds.set (n_dim - 1) (inds.getD (n_dim - 1) 0 + 1))

/-- The table `indices`, Physical_basis.cpp:26-37, by basis function. -/
def indices (n_dim row_size : Nat) : List (List Nat) := List.iterate (next n_dim row_size) (List.replicate n_dim 0) (size n_dim row_size)

/-- `std::legendre` by its recurrence. -/
noncomputable def legendre : Nat → ℝ → ℝ
  | 0, _ => 1
  | 1, x => x
  | n + 2, x => ((2 * n + 3) * x * legendre (n + 1) x - (n + 1) * legendre n x) / (n + 2)

/-- `transformed`, Physical_basis.cpp:57; not a number if the box has no extent. -/
noncomputable def transformed (n_dim row_size : Nat) (pos : List ℝ) (i_dim i_qpoint : Nat) : Option ℝ :=
  if boxSize n_dim row_size pos i_dim = 0 then none else some ((at' n_dim row_size pos i_dim i_qpoint - boxCenter n_dim row_size pos i_dim) / boxSize n_dim row_size pos i_dim * 1.99)

/-- The loop over `i_dim` in `evaluate`, Physical_basis.cpp:54-60, for the first `k` dimensions. -/
noncomputable def evaluateTo (n_dim row_size : Nat) (pos : List ℝ) (i_qpoint i_basis : Nat) : Nat → Option ℝ
  | 0 => some 1
  | k + 1 => (evaluateTo n_dim row_size pos i_qpoint i_basis k).bind fun product => (transformed n_dim row_size pos k i_qpoint).map fun t => product * legendre (((indices n_dim row_size).getD i_basis []).getD k 0) t

/-- `Physical_basis::evaluate`, Physical_basis.cpp:52-61. -/
noncomputable def evaluate (n_dim row_size : Nat) (pos : List ℝ) (i_qpoint i_basis : Nat) : Option ℝ := evaluateTo n_dim row_size pos i_qpoint i_basis n_dim

/-- The entries of `mat`, Physical_basis.cpp:65-70, where they are numbers. -/
noncomputable def mat (n_dim row_size : Nat) (pos : List ℝ) (i_qpoint i_basis : Nat) : ℝ := (evaluate n_dim row_size pos i_qpoint i_basis).getD 0

/-- One column of `Physical_basis::projection`, Physical_basis.cpp:63-73. `solve n m A b` is the least squares solver for an `n` by `m` matrix. -/
noncomputable def projection (solve : Nat → Nat → (Nat → Nat → ℝ) → (Nat → ℝ) → Nat → ℝ) (n_dim row_size : Nat) (pos : List ℝ) (poly weights : Nat → ℝ) (i_qpoint : Nat) : ℝ :=
  let x := solve (row_size ^ n_dim) (size n_dim row_size) (fun q b => √(weights q) * mat n_dim row_size pos q b) fun q => √(weights q) * poly q
  ∑ b ∈ range (size n_dim row_size), mat n_dim row_size pos i_qpoint b * x b

end Hexed.PhysBasis

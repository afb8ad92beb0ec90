import Verif.MathFn.Int
set_option autoImplicit false
set_option linter.unusedVariables false

/-!
# Model of `hexed::Row_index` (include/Row_index.hpp)
-/

namespace Hexed.RowIndex
open Hexed.MathFn

/-- `math::pow` on the nonnegative integers used here (include/math.hpp:29-36). -/
def npow (b : Nat) (e : Int) : Nat := MathFn.pow (K := Nat) b e

/-- The data members, Row_index.hpp:16-27. All are nonnegative integers; overflow of `int` is not modelled. -/
structure RowIndex where
  i_outer : Nat
  i_inner : Nat
  i_fq : Nat
  n_dim : Nat
  row_size : Nat
  i_dim : Nat
  n_qpoint : Nat
  n_fqpoint : Nat
  stride : Nat

/-- The constructor, Row_index.hpp:33-38. -/
def RowIndex.new (nd rs id : Nat) : RowIndex :=
  { i_outer := 0, i_inner := 0, i_fq := 0, n_dim := nd, row_size := rs, i_dim := id,
    n_qpoint := npow rs nd, n_fqpoint := npow rs nd / rs, stride := npow rs ((nd : Int) - 1 - id) }

/-- `operator++`, Row_index.hpp:41-49. -/
def RowIndex.incr (r : RowIndex) : RowIndex :=
  if r.i_inner + 1 = r.stride then { r with i_fq := r.i_fq + 1, i_inner := 0, i_outer := r.i_outer + 1 }
  else { r with i_fq := r.i_fq + 1, i_inner := r.i_inner + 1 }

/-- `operator bool`, Row_index.hpp:53. -/
def RowIndex.valid (r : RowIndex) : Bool := r.i_fq < r.n_fqpoint

/-- `i_face_qpoint`, Row_index.hpp:56. -/
def RowIndex.i_face_qpoint (r : RowIndex) : Nat := r.i_fq

/-- `i_qpoint`, Row_index.hpp:60. -/
def RowIndex.i_qpoint (r : RowIndex) (i_node : Nat) : Nat :=
  r.i_outer * r.stride * r.row_size + r.i_inner + i_node * r.stride

/-- `i_node`, Row_index.hpp:64. -/
def RowIndex.i_node (r : RowIndex) (i_qpoint : Nat) : Nat := (i_qpoint / r.stride) % r.row_size

theorem RowIndex.incr_fq (r : RowIndex) : r.incr.i_fq = r.i_fq + 1 := by unfold RowIndex.incr; split <;> rfl
theorem RowIndex.incr_nfq (r : RowIndex) : r.incr.n_fqpoint = r.n_fqpoint := by unfold RowIndex.incr; split <;> rfl

/-- The idiom `for (Row_index ind(...); ind; ++ind)` as used by the kernels (e.g. include/Spatial.hpp): the rows visited. -/
def rows (r : RowIndex) : List RowIndex := if h : r.valid = true then r :: rows r.incr else []
termination_by r.n_fqpoint - r.i_fq
decreasing_by
  rw [RowIndex.incr_fq, RowIndex.incr_nfq]
  simp only [RowIndex.valid, decide_eq_true_eq] at h
  omega

end Hexed.RowIndex

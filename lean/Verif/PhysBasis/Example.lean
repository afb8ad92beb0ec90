import Verif.PhysBasis.Props
import Mathlib.Analysis.InnerProductSpace.PiL2
import Mathlib.Analysis.InnerProductSpace.Projection.Basic
set_option autoImplicit false
set_option linter.unusedVariables false

/-!
# Cases that meet the hypotheses
-/

namespace Hexed.PhysBasis

open Finset

/-- For any matrix and right hand side there is a solution of the least squares problem. -/
theorem exists_solution (n m : Nat) (A : Nat → Nat → ℝ) (b : Nat → ℝ) : ∃ x : Nat → ℝ, ∀ j < m, ∑ i ∈ range n, A i j * (∑ k ∈ range m, A i k * x k - b i) = 0 := by
  let col : Fin m → EuclideanSpace ℝ (Fin n) := fun j => WithLp.toLp 2 fun i => A i j
  let y : EuclideanSpace ℝ (Fin n) := WithLp.toLp 2 fun i => b i
  let K := Submodule.span ℝ (Set.range col)
  have hK : K.HasOrthogonalProjection := inferInstance
  obtain ⟨x, hx⟩ := (Submodule.mem_span_range_iff_exists_fun ℝ).1 (K.starProjection_apply_mem y)
  refine ⟨fun k => if h : k < m then x ⟨k, h⟩ else 0, fun j hj => ?_⟩
  have o := K.sub_starProjection_mem_orthogonal y (col ⟨j, hj⟩) (Submodule.subset_span ⟨_, rfl⟩)
  rw [← hx, PiLp.inner_apply] at o
  rw [Finset.sum_range, ← neg_eq_zero, ← Finset.sum_neg_distrib]
  refine Eq.trans (Finset.sum_congr rfl fun i _ => ?_) o
  dsimp only
  have : ∑ k ∈ range m, A i k * (if h : k < m then x ⟨k, h⟩ else 0) = ∑ k : Fin m, x k * A i k := by
    rw [Finset.sum_range]
    refine Finset.sum_congr rfl fun k _ => ?_
    rw [dif_pos k.2]
    ring
  rw [this]
  simp [col, y]
  ring

/-- There is a solver as the theorems assume. -/
theorem exists_solver : ∃ solve, LeastSquares solve :=
  ⟨fun n m A b => Classical.choose (exists_solution n m A b), fun n m A b => Classical.choose_spec (exists_solution n m A b)⟩

/-- The corners of a quadrilateral that is not a rectangle. -/
noncomputable def quad : List ℝ := [0, 1 / 2, 1, 3, 0, 1, 0, 2]

theorem quad_spread : Spread 2 2 quad := by
  intro d hd
  interval_cases d
  · exact ⟨0, by norm_num, 2, by norm_num, by norm_num [quad]⟩
  · exact ⟨0, by norm_num, 1, by norm_num, by norm_num [quad]⟩

example : construct 2 2 quad = some quad := (construct_iff _ _ _).2 ⟨by omega, by simp [quad]⟩

example : indices 2 3 = [[0, 0], [0, 1], [0, 2], [1, 0], [1, 1], [2, 0]] := by decide

/-- The affine function 1 + 2 x - y at the corners. -/
example : IsPoly 2 2 quad (fun q => [1, 1, 3, 5].getD q 0) := by
  refine ⟨1 + MvPolynomial.C 2 * MvPolynomial.X 0 - MvPolynomial.X 1, ?_, fun q hq => ?_⟩
  · refine lt_of_le_of_lt (MvPolynomial.totalDegree_sub _ _) (max_lt (lt_of_le_of_lt (MvPolynomial.totalDegree_add _ _) (max_lt (by simp) (lt_of_le_of_lt (MvPolynomial.totalDegree_mul _ _) ?_))) ?_)
    · simp
    · simp
  · norm_num at hq
    interval_cases q <;> norm_num [quad]

example : ∃ solve, LeastSquares solve ∧ ∀ p : Nat → ℝ, ∑ q ∈ range 4, 1 / 4 * projection solve 2 2 quad p (fun _ => 1 / 4) q = ∑ q ∈ range 4, 1 / 4 * p q := by
  obtain ⟨solve, hs⟩ := exists_solver
  exact ⟨solve, hs, fun p => projection_integral hs (by omega) (by omega) quad_spread (by omega) (fun _ _ => by norm_num) p⟩

/-- The bilinear function that is one at one corner only is not affine, so the projection does something. -/
example : ¬IsPoly 2 2 [0, 0, 1, 1, 0, 1, 0, 1] (fun q => if q = 3 then 1 else 0) := by
  intro h
  have hsp : Spread 2 2 [0, 0, 1, 1, 0, 1, 0, 1] := by
    intro d hd
    interval_cases d
    · exact ⟨0, by norm_num, 2, by norm_num, by norm_num⟩
    · exact ⟨0, by norm_num, 1, by norm_num, by norm_num⟩
  obtain ⟨c, hc⟩ := (span_iff (by omega) (by omega) hsp (by omega) _).1 h
  have e : indices 2 2 = [[0, 0], [0, 1], [1, 0]] := by decide
  have hz : size 2 2 = 3 := by decide
  have key : ∀ q < 4, (if q = 3 then (1 : ℝ) else 0) = c 0 + c 1 * (slope 2 2 [0, 0, 1, 1, 0, 1, 0, 1] 1 * at' 2 2 [0, 0, 1, 1, 0, 1, 0, 1] 1 q + offset 2 2 [0, 0, 1, 1, 0, 1, 0, 1] 1) + c 2 * (slope 2 2 [0, 0, 1, 1, 0, 1, 0, 1] 0 * at' 2 2 [0, 0, 1, 1, 0, 1, 0, 1] 0 q + offset 2 2 [0, 0, 1, 1, 0, 1, 0, 1] 0) := by
    intro q hq
    obtain ⟨v, hv, hs⟩ := hc q (by norm_num; exact hq)
    rw [hs, hz, Finset.sum_range_succ, Finset.sum_range_succ, Finset.sum_range_succ, Finset.sum_range_zero]
    have h0 := hv 0 (by omega)
    have h1 := hv 1 (by omega)
    have h2 := hv 2 (by omega)
    rw [mat_eq hsp] at h0 h1 h2
    rw [← Option.some.inj h0, ← Option.some.inj h1, ← Option.some.inj h2, e]
    simp [prodLeg, legendre]
  have k0 := key 0 (by omega)
  have k1 := key 1 (by omega)
  have k2 := key 2 (by omega)
  have k3 := key 3 (by omega)
  norm_num [at'] at k0 k1 k2 k3
  linarith

end Hexed.PhysBasis

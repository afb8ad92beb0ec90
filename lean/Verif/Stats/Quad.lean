import Verif.Stats.Spec
import Mathlib.MeasureTheory.Integral.Pi
import Mathlib.Analysis.SpecialFunctions.Integrals.Basic
import Mathlib.Algebra.MvPolynomial.Eval
set_option autoImplicit false
set_option linter.unusedVariables false

/-! # Tensor product quadrature is exact -/

namespace Hexed.Stats
open Hexed.Tensor Hexed.Basis MeasureTheory

theorem idx_bij {nd b : Nat} (hb : 0 < b) : Function.Bijective fun c : Fin nd → Fin b => (⟨idx c, idx_lt c⟩ : Fin (b ^ nd)) := by
  rw [Fintype.bijective_iff_surjective_and_card]
  refine ⟨fun j => ?_, by simp⟩
  obtain ⟨c, hc⟩ := idx_surj hb j.1 j.2
  exact ⟨c, Fin.ext hc⟩

theorem sum_idx {nd b : Nat} (hb : 0 < b) (g : Nat → ℝ) : ∑ q ∈ Finset.range (b ^ nd), g q = ∑ c : Fin nd → Fin b, g (idx c) := by
  rw [Finset.sum_range]
  exact (Function.Bijective.sum_comp (idx_bij hb) fun j : Fin (b ^ nd) => g j).symm

theorem mono_quad {b : Nodes ℝ} {deg : Nat} (h : b.Exact deg) {s : Nat} (hs : s ≤ deg) : ∑ i : Fin b.n, b.weight i * b.node i ^ s = 1 / (s + 1) := by
  have := h.integral (Polynomial.C (1 / ((s : ℝ) + 1)) * Polynomial.X ^ (s + 1)) (by
    refine (Polynomial.natDegree_C_mul_X_pow_le _ _).trans (by omega))
  rw [Finset.sum_range] at this
  have hs1 : ((s : ℝ) + 1) ≠ 0 := by positivity
  simp only [Polynomial.derivative_C_mul, Polynomial.derivative_X_pow, Polynomial.eval_mul, Polynomial.eval_C, Polynomial.eval_pow, Polynomial.eval_X] at this
  simp only [Nat.cast_add, Nat.cast_one, add_tsub_cancel_right, one_pow, mul_one] at this
  rw [zero_pow (by omega), mul_zero, sub_zero] at this
  rw [← this]
  refine Finset.sum_congr rfl fun i _ => ?_
  field_simp

theorem mono_integral {nd : Nat} (s : Fin nd → Nat) : ∫ x in Set.Icc (0 : Fin nd → ℝ) 1, ∏ k, x k ^ s k = ∏ k, (1 / ((s k : ℝ) + 1)) := by
  have h1 : Set.Icc (0 : Fin nd → ℝ) 1 = Set.univ.pi fun _ => Set.Icc (0 : ℝ) 1 := by
    rw [Set.pi_univ_Icc]; rfl
  rw [h1, volume_pi, Measure.restrict_pi_pi, integral_fintype_prod_eq_prod (fun k (t : ℝ) => t ^ s k)]
  refine Finset.prod_congr rfl fun k _ => ?_
  rw [integral_Icc_eq_integral_Ioc, ← intervalIntegral.integral_of_le zero_le_one, integral_pow]
  simp

theorem tensor_quad {b : Nodes ℝ} {deg : Nat} (h : b.Exact deg) {nd : Nat} (p : MvPolynomial (Fin nd) ℝ) (hp : ∀ i, p.degreeOf i ≤ deg) :
    ∑ c : Fin nd → Fin b.n, (∏ k, b.weight (c k)) * MvPolynomial.eval (point b c) p = ∫ x in Set.Icc (0 : Fin nd → ℝ) 1, MvPolynomial.eval x p := by
  simp only [MvPolynomial.eval_eq']
  rw [integral_finset_sum]
  · simp only [Finset.mul_sum]
    rw [Finset.sum_comm]
    refine Finset.sum_congr rfl fun s hs => ?_
    rw [integral_const_mul, mono_integral]
    have hs' : ∀ k, s k ≤ deg := fun k => (MvPolynomial.le_degreeOf_of_mem_support k hs).trans (hp k)
    have e : ∀ c : Fin nd → Fin b.n, (∏ k, b.weight (c k)) * (MvPolynomial.coeff s p * ∏ k, point b c k ^ s k) =
        MvPolynomial.coeff s p * ∏ k, b.weight (c k) * b.node (c k) ^ s k := by
      intro c; rw [Finset.prod_mul_distrib]; simp only [point]; ring
    simp only [e]
    rw [← Finset.mul_sum]
    congr 1
    have := Finset.prod_univ_sum (fun _ : Fin nd => (Finset.univ : Finset (Fin b.n))) (fun k i => b.weight i * b.node i ^ s k)
    rw [Fintype.piFinset_univ] at this
    rw [← this]
    exact Finset.prod_congr rfl fun k _ => mono_quad h (hs' k)
  · intro s _
    apply ContinuousOn.integrableOn_compact isCompact_Icc
    fun_prop

theorem poly_quad {b : Nodes ℝ} {deg : Nat} (h : Rule b deg) {nd : Nat} {f : (Fin nd → ℝ) → ℝ} (hf : PolyOn deg f) :
    ∑ c : Fin nd → Fin b.n, (∏ k, b.weight (c k)) * f (point b c) = ∫ x in Set.Icc (0 : Fin nd → ℝ) 1, f x := by
  obtain ⟨p, h1, h2⟩ := hf
  rw [setIntegral_congr_fun measurableSet_Icc h2, ← tensor_quad h.exact p h1]
  refine Finset.sum_congr rfl fun c _ => ?_
  rw [h2]
  exact ⟨fun k => (h.unit _ (c k).2).1, fun k => (h.unit _ (c k).2).2⟩

end Hexed.Stats
